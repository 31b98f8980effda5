/-
For C99: the parser follows the course of reading a journal.
-/
import Verif.Lemmas.LineKinds
import Verif.Props.Mistakes

namespace Gledger

/-! ### Ending what is open -/

/-- The state of the builder when this is open. -/
def Page.At (b : Builder) : Page → Prop
  | .closed false => b = {}
  | .closed true => b.Idle ∧ MayFollow b.prev
  | .entry h ps => h.postings = [] ∧ h.elided = none ∧ h.date.Real ∧ (∀ p ∈ ps, p.accountPath ≠ []) ∧
      ∃ prev, MayFollow prev ∧ b = building none (settle h { linked := true } ps).1 (settle h { linked := true } ps).2 prev
  | .budget m ps => (∀ p ∈ ps, p.accountPath ≠ []) ∧ ∃ prev per, MayFollow prev ∧ per.startDate = m ∧ per.interval = .none ∧
      b = building (some per) (settle {} {} ps).1 (settle {} {} ps).2 prev

theorem settle_open (t : Transaction) (l : Bool) (ps : List Posting) (h : ∀ p ∈ ps, p.accountPath ≠ []) :
    ∃ qs q, (if ps = [] then [{ linked := l }] else ps) = qs ++ [q] ∧ settle t { linked := l } ps = (t.addAll qs, q) := by
  by_cases h0 : ps = []
  · subst h0
    exact ⟨[], { linked := l }, rfl, rfl⟩
  · rw [if_neg h0]
    refine ⟨ps.dropLast, ps.getLast h0, (List.dropLast_append_getLast h0).symm, ?_⟩
    conv_lhs => rw [← List.dropLast_append_getLast h0]
    rw [settle_snoc, settle_pend _ _ _ fun q hq => h q (List.mem_of_mem_dropLast hq)]
    rfl

theorem addPosting_snoc {t : Transaction} (he : t.elided = none) (qs : List Posting) (q : Posting) :
    (TwoMissing (qs ++ [q]) → ∃ t', (t.addAll qs).addPosting q = (t', some .tooManyElided)) ∧
    (¬ TwoMissing (qs ++ [q]) → (t.addAll qs).addPosting q = (t.addAll (qs ++ [q]), none)) := by
  have hk : (t.addAll qs).elided = none ↔ ∀ p ∈ qs, p.amount ≠ none := by
    constructor
    · intro h p hp hn
      rw [addAll_kept _ _ he] at h
      obtain ⟨r, hr, h2⟩ := kept_elided (ps := qs) ⟨p, hp, hn⟩
      rcases elided_split (kept_few qs) with hall | ⟨pre, x, post, hx, hp, hpre, hpost⟩
      · exact hall r hr h2
      · rw [hx, addAll_one_elided t he pre post x hpre hp hpost] at h
        cases h
    · intro h
      rw [addAll_elided t qs h, he]
  have e : t.addAll (qs ++ [q]) = ((t.addAll qs).addPosting q).1 := by simp [Transaction.addAll]
  rw [e]
  constructor
  · rintro ⟨rs, r, h1, h2, p, hp, h3⟩
    obtain ⟨h4, h5⟩ := List.append_inj' h1 rfl
    cases h5
    subst h4
    refine ⟨t.addAll qs, ?_⟩
    unfold Transaction.addPosting
    rw [if_pos h2, if_pos]
    rw [ne_eq, hk]
    exact fun h => h p hp h3
  · intro h
    refine Prod.ext rfl ?_
    simp only
    unfold Transaction.addPosting
    by_cases hq : q.amount = none
    · rw [if_pos hq, if_neg]
      rw [ne_eq, not_not, hk]
      intro p hp hn
      exact h ⟨qs, q, rfl, hq, p, hp, hn⟩
    · rw [if_neg hq]

theorem close_kept {t : Transaction} (ht : t.postings = []) (he : t.elided = none) (ps : List Posting) :
    (Unbalanced (kept ps) → ∃ t', (t.addAll ps).close = (t', some .unbalanced)) ∧
    (¬ Unbalanced (kept ps) → (t.addAll ps).close = (t.complete (kept ps), none)) := by
  rw [addAll_kept _ _ he]
  constructor
  · rintro ⟨h1, h2⟩
    rw [addAll_amounted t _ h1, ht, List.nil_append, close_eq, foldl_closeStep_sum]
    simp only [zero_add, he]
    rw [if_pos h2]
    exact ⟨_, rfl⟩
  · intro h
    refine addAll_close ht he (kept_few _) fun hall => ?_
    by_contra h2
    exact h ⟨hall, h2⟩

theorem addAll_kept_postings {t : Transaction} (ht : t.postings = []) (he : t.elided = none) (ps : List Posting) : (t.addAll ps).postings = kept ps := by
  rw [addAll_kept _ _ he]
  rcases elided_split (kept_few ps) with hall | ⟨pre, x, post, hx, hp, hpre, hpost⟩
  · rw [addAll_amounted t _ hall, ht, List.nil_append]
  · rw [hx, addAll_one_elided t he pre post x hpre hp hpost, ht, List.nil_append]

/-- Ending an entry. -/
theorem end_entry {h : Transaction} {ps : List Posting} (h1 : h.postings = []) (h2 : h.elided = none) (h3 : ∀ p ∈ ps, p.accountPath ≠ []) :
    let r := endNormalTransaction (some (settle h { linked := true } ps).2) false (settle h { linked := true } ps).1
    (∀ ms, (Page.entry h ps).Ends (.ok ms) → ms = [.transaction r.1] ∧ r.2 = none ∧ r.1.date = h.date) ∧
    ∀ reason, (Page.entry h ps).Ends (.error reason) → ∃ e, r.2 = some e ∧ ∀ lib, Err.text lib e = reason := by
  obtain ⟨qs, q, e1, e2⟩ := settle_open h true ps h3
  obtain ⟨a1, a2⟩ := addPosting_snoc h2 qs q
  obtain ⟨c1, c2⟩ := close_kept h1 h2 (qs ++ [q])
  have hps : (Page.entry h ps).postings = qs ++ [q] := e1
  have hk : (Page.entry h ps).kept = kept (qs ++ [q]) := by rw [Page.kept, hps]
  rw [e2]
  intro r
  constructor
  · intro ms hm
    cases hm with
    | complete n1 n2 =>
      rw [hps] at n1
      rw [hk] at n2
      have hr : r = (h.complete (kept (qs ++ [q])), none) := by
        simp only [r, endNormalTransaction, a2 n1]
        exact c2 n2
      rw [hr, Page.meaning, hk]
      exact ⟨rfl, rfl, rfl⟩
  · intro reason hr
    cases hr with
    | missing n1 =>
      rw [hps] at n1
      obtain ⟨t', ht'⟩ := a1 n1
      refine ⟨.tooManyElided, ?_, fun lib => rfl⟩
      simp only [r, endNormalTransaction, ht']
    | unbalanced n1 n2 =>
      rw [hps] at n1
      rw [hk] at n2
      obtain ⟨t', ht'⟩ := c1 n2
      refine ⟨.unbalanced, ?_, fun lib => rfl⟩
      simp only [r, endNormalTransaction, a2 n1]
      exact congrArg Prod.snd ht'

/-- Ending a budget entry. -/
theorem end_budget {m : Date} {ps : List Posting} (h3 : ∀ p ∈ ps, p.accountPath ≠ []) :
    let r := endNormalTransaction (some (settle {} {} ps).2) true (settle {} {} ps).1
    (∀ ms, (Page.budget m ps).Ends (.ok ms) → ms = [.budget m r.1.postings] ∧ r.2 = none) ∧
    ∀ reason, (Page.budget m ps).Ends (.error reason) → ∃ e, r.2 = some e ∧ ∀ lib, Err.text lib e = reason := by
  obtain ⟨qs, q, e1, e2⟩ := settle_open {} false ps h3
  obtain ⟨a1, a2⟩ := addPosting_snoc (t := {}) rfl qs q
  have hps : (Page.budget m ps).postings = qs ++ [q] := e1
  obtain ⟨xs, hx, hclose⟩ : ∃ xs, (Page.budget m ps).kept = kept xs ∧ (¬ TwoMissing (qs ++ [q]) →
      endNormalTransaction (some q) true (Transaction.addAll {} qs) = (Transaction.addAll {} xs).close) := by
    have hpo := addAll_kept_postings (t := {}) rfl rfl (qs ++ [q])
    by_cases hr : ∃ p ∈ kept (qs ++ [q]), p.accountPath = budgetRootID
    · refine ⟨qs ++ [q], by rw [Page.kept, hps, if_pos hr], fun n1 => ?_⟩
      simp only [endNormalTransaction, a2 n1]
      rw [if_neg]
      rw [hpo]
      simpa using hr
    · refine ⟨qs ++ [q] ++ [{ linked := true, accountPath := budgetRootID }], by rw [Page.kept, hps, if_neg hr], fun n1 => ?_⟩
      simp only [endNormalTransaction, a2 n1]
      rw [if_pos]
      · congr 1
        simp [Transaction.addAll]
      · rw [hpo]
        simpa using hr
  obtain ⟨c1, c2⟩ := close_kept (t := {}) rfl rfl xs
  rw [show settle {} {} ps = (Transaction.addAll {} qs, q) from e2]
  intro r
  constructor
  · intro ms hm
    cases hm with
    | complete n1 n2 =>
      rw [hps] at n1
      rw [hx] at n2
      have hr : r = (Transaction.complete {} (kept xs), none) := (hclose n1).trans (c2 n2)
      rw [hr, Page.meaning, hx]
      exact ⟨rfl, rfl⟩
  · intro reason hr
    cases hr with
    | missing n1 =>
      rw [hps] at n1
      obtain ⟨t', ht'⟩ := a1 n1
      refine ⟨.tooManyElided, ?_, fun lib => rfl⟩
      simp only [r, endNormalTransaction, ht']
    | unbalanced n1 n2 =>
      rw [hps] at n1
      rw [hx] at n2
      obtain ⟨t', ht'⟩ := c1 n2
      refine ⟨.unbalanced, ?_, fun lib => rfl⟩
      exact congrArg Prod.snd ((hclose n1).trans ht')

theorem replay_one {σ : Type} (H : Handlers σ) (c : Call) (u : σ) : H.replay [c] u = H.call u c := by
  rw [Handlers.replay]
  obtain ⟨u', _ | f⟩ := H.call u c <;> rfl

theorem callHandler_normal {σ : Type} {H : Handlers σ} {t : Transaction} {b : Builder} {fl : List Str} {u : σ} {label : Str}
    (hf : fl.getLast? = some label) : callHandler H.th t ⟨b, fl, u⟩ = (⟨b, fl, (H.call u (.normal t label)).1⟩, (H.call u (.normal t label)).2) := by
  unfold callHandler Handlers.call
  cases H.th with
  | none => rfl
  | some h => simp only [hf]

theorem callHandler_periodic {σ : Type} {H : Handlers σ} {t : PeriodicTransaction} {b : Builder} {fl : List Str} {u : σ} {label : Str}
    (hf : fl.getLast? = some label) : callHandler H.ph t ⟨b, fl, u⟩ = (⟨b, fl, (H.call u (.periodic t label)).1⟩, (H.call u (.periodic t label)).2) := by
  unfold callHandler Handlers.call
  cases H.ph with
  | none => rfl
  | some h => simp only [hf]

/-- The parser ending what is open, with any handlers. -/
theorem at_ends {σ : Type} (H : Handlers σ) {pg : Page} {st : PState σ} {label : Str} (h : pg.At st.builder) (hf : st.files.getLast? = some label) :
    (∀ ms, pg.Ends (.ok ms) → ∃ calls b', List.Forall₂ (fun x c => x.1.Call x.2 c) (labelled label ms) calls ∧ pg.shut.At b' ∧ b'.Idle ∧
      (∀ u', H.replay calls st.user = (u', none) → endTransaction H st = (⟨b', st.files, u'⟩, none)) ∧
      ∀ u' f, H.replay calls st.user = (u', some f) → ∃ st', endTransaction H st = (st', some f) ∧ st'.user = u') ∧
    ∀ reason, pg.Ends (.error reason) → ∃ st' e, endTransaction H st = (st', some (.err e)) ∧ (∀ lib, Err.text lib e = reason) ∧ st'.user = st.user := by
  obtain ⟨bd, fl, us⟩ := st
  simp only at hf
  cases pg with
  | closed b =>
    have hi : bd.Idle := by
      cases b with
      | false => have h : bd = {} := h; subst h; exact ⟨rfl, rfl, rfl⟩
      | true => exact h.1
    constructor
    · intro ms hm
      cases hm with
      | complete _ _ =>
        refine ⟨[], bd, .nil, h, hi, ?_, ?_⟩
        · rintro u' ⟨⟩
          exact endTransaction_of_idle _ _ hi
        · rintro u' f ⟨⟩
    · intro reason hr
      cases hr with
      | missing n =>
        obtain ⟨qs, q, h1, _⟩ := n
        simp [Page.postings] at h1
      | unbalanced _ n => exact absurd rfl n.2
  | entry hd ps =>
    obtain ⟨h1, h2, h3, h4, prev, hp, rfl⟩ := h
    obtain ⟨k1, k2⟩ := end_entry h1 h2 h4
    simp only [building, endTransaction]
    generalize endNormalTransaction (some (settle hd { linked := true } ps).2) false (settle hd { linked := true } ps).1 = r at k1 k2
    obtain ⟨t, o⟩ := r
    constructor
    · intro ms hm
      obtain ⟨rfl, ho, hdt⟩ := k1 ms hm
      simp only at ho hdt
      subst ho
      refine ⟨[.normal t label], ⟨.normal, none, none, none, prev⟩, .cons ⟨rfl, rfl, by rw [hdt]; exact h3⟩ .nil, ⟨⟨rfl, rfl, rfl⟩, hp⟩, ⟨rfl, rfl, rfl⟩, ?_, ?_⟩
      · intro u' hu
        rw [replay_one] at hu
        rw [callHandler_normal hf, hu]
        rfl
      · intro u' f hu
        rw [replay_one] at hu
        rw [callHandler_normal hf, hu]
        exact ⟨_, rfl, rfl⟩
    · intro reason hr
      obtain ⟨e, ho, he⟩ := k2 reason hr
      simp only at ho
      subst ho
      exact ⟨_, e, rfl, he, rfl⟩
  | budget m ps =>
    obtain ⟨h4, prev, per, hp, hm, hi, rfl⟩ := h
    obtain ⟨k1, k2⟩ := end_budget (m := m) h4
    simp only [building, endTransaction, hi, decide_true]
    generalize endNormalTransaction (some (settle {} {} ps).2) true (settle {} {} ps).1 = r at k1 k2
    obtain ⟨t, o⟩ := r
    constructor
    · intro ms hms
      obtain ⟨rfl, ho⟩ := k1 ms hms
      simp only at ho
      subst ho
      refine ⟨[.periodic ⟨per, t⟩ label], ⟨.periodic, none, none, none, prev⟩, .cons ⟨rfl, hm, hi, rfl⟩ .nil, ⟨⟨rfl, rfl, rfl⟩, hp⟩, ⟨rfl, rfl, rfl⟩, ?_, ?_⟩
      · intro u' hu
        rw [replay_one] at hu
        rw [callHandler_periodic hf, hu]
        rfl
      · intro u' f hu
        rw [replay_one] at hu
        rw [callHandler_periodic hf, hu]
        exact ⟨_, rfl, rfl⟩
    · intro reason hr
      obtain ⟨e, ho, he⟩ := k2 reason hr
      simp only at ho
      subst ho
      exact ⟨_, e, rfl, he, rfl⟩

/-- What is open can end in exactly one way. -/
theorem ends_exists (pg : Page) : ∃ r, pg.Ends r := by
  by_cases h1 : TwoMissing pg.postings
  · exact ⟨_, .missing h1⟩
  · by_cases h2 : Unbalanced pg.kept
    · exact ⟨_, .unbalanced h1 h2⟩
    · exact ⟨_, .complete h1 h2⟩

/-! ### Lines -/

/-- The failure of the parser that a fault is about. -/
def Fault.IsOf (lib : Err → Str) (f : Failure) : Fault → Prop
  | .error reason => ∃ e, reason (Err.text lib e) ∧ f = .err e
  | .crash p => f = .panic p

theorem fresh_open (t : Transaction) (l : Bool) (ps : List Posting) (h : ∀ p ∈ ps, p.accountPath ≠ []) : (settle t { linked := l } ps).2.Fresh := by
  by_cases h0 : ps = []
  · subst h0
    exact fun _ => ⟨rfl, rfl⟩
  · rw [← List.dropLast_append_getLast h0, settle_snoc]
    exact fun hn => absurd hn (h _ (List.getLast_mem h0))

theorem number_iff (s : Str) (q : I64) : parseAmount s = .ok q ↔ NumberMeans s q := C06_accepted_texts_partial s q

theorem number_error {s : Str} (h : ∀ q, ¬ NumberMeans s q) (hs : s ≠ []) : ∃ e, parseAmount s = .error (.err e) := by
  refine amount_error ?_ hs
  rintro ⟨g, g', w, k1, k2, k3, k4⟩
  rcases k4 with k4 | ⟨g'', f, k4, k5, k6⟩
  · exact h _ ⟨g, g', w, k1, k2, k3, Or.inl ⟨k4, rfl⟩⟩
  · exact h _ ⟨g, g', w, k1, k2, k3, Or.inr ⟨g'', f, k4, k5, k6, rfl⟩⟩

section
variable [U : Unicode] {σ : Type}

/-- A posting line in an open entry. -/
theorem posting_runs (fs : FileSystem) (H : Handlers σ) (n : Nat) (kind : Option Period) (t : Transaction) (l : Bool) {ps : List Posting}
    (hps : ∀ p ∈ ps, p.accountPath ≠ []) {prev : Option ItemType} (hp : MayFollow prev) (fl : List Str) (us : σ) (account : Str) :
    let st : PState σ := ⟨building kind (settle t { linked := l } ps).1 (settle t { linked := l } ps).2 prev, fl, us⟩
    let after := fun (p : Posting) pv => (⟨building kind (settle t { linked := l } (ps ++ [p])).1 (settle t { linked := l } (ps ++ [p])).2 pv, fl, us⟩ : PState σ)
    runLine (parseItem fs H n) { items := [(.accountItem, account)] } st =
        (after { linked := true, accountPath := account } (some .accountItem), none) ∧
    ∀ commodity number,
      (∀ q, parseAmount number = .ok q → runLine (parseItem fs H n) { items := [(.accountItem, account), (.commodityItem, commodity), (.amountItem, number)] } st =
        (after { linked := true, accountPath := account, amount := some ⟨commodity, q⟩ } (some .amountItem), none)) ∧
      (∀ e, parseAmount number = .error (.err e) → ∃ s', runLine (parseItem fs H n)
        { items := [(.accountItem, account), (.commodityItem, commodity), (.amountItem, number)] } st = (s', some (.err (.parsingAmount e))) ∧ s'.user = us) ∧
      (number = [] → ∃ s', runLine (parseItem fs H n)
        { items := [(.accountItem, account), (.commodityItem, commodity), (.amountItem, number)] } st = (s', some (.panic .indexOutOfRange)) ∧ s'.user = us) := by
  intro st after
  have h1 := build_account kind (settle t { linked := l } ps).1 (settle t { linked := l } ps).2 (fresh_open t l ps hps) prev hp account
  refine ⟨?_, fun commodity number => ⟨fun q hq => ?_, fun e he => ?_, ?_⟩⟩
  · rw [runLine_one, parseItem_build fs H n .accountItem rfl]
    simp only [st, h1, liftBuilder, after, settle_snoc]
  · rw [runLine_ok]
    simp only [st, runItems, parseItem_build fs H n .accountItem rfl, parseItem_build fs H n .commodityItem rfl, parseItem_build fs H n .amountItem rfl, h1,
      liftBuilder, Step.andThen]
    rw [build_commodity kind _ _ rfl]
    simp only
    rw [build_amount kind _ _ _ _ rfl _ _ hq]
    simp only [after, settle_snoc]
  · rw [runLine_ok]
    simp only [st, runItems, parseItem_build fs H n .accountItem rfl, parseItem_build fs H n .commodityItem rfl, parseItem_build fs H n .amountItem rfl, h1,
      liftBuilder, Step.andThen]
    rw [build_commodity kind _ _ rfl]
    cases kind <;> exact ⟨_, by simp [building, Builder.build, Builder.buildNormal, Builder.buildPeriodic, Step.andThen, he]; rfl, rfl⟩
  · rintro rfl
    rw [runLine_ok]
    simp only [st, runItems, parseItem_build fs H n .accountItem rfl, parseItem_build fs H n .commodityItem rfl, parseItem_build fs H n .amountItem rfl, h1,
      liftBuilder, Step.andThen]
    rw [build_commodity kind _ _ rfl]
    cases kind <;> exact ⟨_, by simp [building, Builder.build, Builder.buildNormal, Builder.buildPeriodic, Step.andThen, parseAmount]; rfl, rfl⟩

/-- The header of an entry, when the date can be read. -/
theorem header_runs (fs : FileSystem) (H : Handlers σ) (n : Nat) {hint d : Str} {s : TransactionState} {p note : Str} {li : LineItems}
    (hl : (Line.header d s p note).Items hint li) {st st' : PState σ} (he : endTransaction H st = (st', none)) (hi : st'.builder.Idle) {day : Date}
    (hd : parseDate d = .ok day) :
    ∃ prev, MayFollow prev ∧ runLine (parseItem fs H n) li st =
      (⟨building none { date := day, state := s, payee := p, headerNote := note } { linked := true } prev, st'.files, st'.user⟩, none) := by
  obtain ⟨⟨tt, tr, pe, cu, pv⟩, fl, us⟩ := st'
  obtain ⟨i1, i2, i3⟩ := hi
  simp only at i1 i2 i3
  subst i1 i2 i3
  have hdate : parseItem fs H n .dateItem d st = (⟨building none { date := day } { linked := true } (some .dateItem), fl, us⟩, none) := by
    rw [parseItem_date, he]
    simp [Step.andThen, Builder.begin, Builder.build, Builder.buildNormal, hd, Builder.target, Builder.setTarget, liftBuilder, Step.wrap, building]
  rcases hl with rfl | ⟨rfl, rfl⟩
  · refine ⟨some .transactionHeaderCommentItem, by simp [MayFollow], ?_⟩
    rw [runLine_ok, runItems_cons, hdate, andThen_ok]
    cases s <;> simp [stateItemsOf, TransactionState.mark, runItems, parseItem_build fs H n .stateItem rfl, parseItem_build fs H n .payeeItem rfl,
      parseItem_build fs H n .transactionHeaderCommentItem rfl, liftBuilder, building, Builder.build,
      Builder.buildNormal, Builder.target, Builder.setTarget, Step.andThen]
  · refine ⟨some .payeeItem, by simp [MayFollow], ?_⟩
    rw [runLine_ok, runItems_cons, hdate, andThen_ok]
    cases s <;> simp [stateItemsOf, TransactionState.mark, runItems, parseItem_build fs H n .stateItem rfl, parseItem_build fs H n .payeeItem rfl,
      liftBuilder, building, Builder.build, Builder.buildNormal, Builder.target, Builder.setTarget, Step.andThen]

theorem header_date_fails (fs : FileSystem) (H : Handlers σ) (n : Nat) {hint d : Str} {s : TransactionState} {p note : Str} {li : LineItems}
    (hl : (Line.header d s p note).Items hint li) {st st' : PState σ} (he : endTransaction H st = (st', none)) {f : Failure}
    (hd : parseDate d = .error f) : ∃ s', runLine (parseItem fs H n) li st = (s', some (f.wrap .parsingDate)) ∧ s'.user = st'.user := by
  have hdate : ∃ s', parseItem fs H n .dateItem d st = (s', some (f.wrap .parsingDate)) ∧ s'.user = st'.user := by
    rw [parseItem_date, he]
    have hb : (st'.builder.begin .normal).build .dateItem d = (st'.builder.begin .normal, some f) := by
      simp [Builder.begin, Builder.build, Builder.buildNormal, hd, Step.andThen]
    simp only [Step.andThen, hb]
    exact ⟨_, rfl, rfl⟩
  obtain ⟨s', e1, e2⟩ := hdate
  refine ⟨s', ?_, e2⟩
  rcases hl with rfl | ⟨rfl, rfl⟩ <;> rw [runLine_ok, runItems_cons, e1] <;> rfl

theorem period_runs (fs : FileSystem) (H : Handlers σ) (n : Nat) (period : Str) {st st' : PState σ} (he : endTransaction H st = (st', none))
    (hi : st'.builder.Idle) : runLine (parseItem fs H n) { items := [(.periodItem, period)] } st =
      (⟨building (some (parsePeriod period)) {} {} (some .periodItem), st'.files, st'.user⟩, none) := by
  obtain ⟨⟨tt, tr, pe, cu, pv⟩, fl, us⟩ := st'
  obtain ⟨i1, i2, i3⟩ := hi
  simp only at i1 i2 i3
  subst i1 i2 i3
  rw [runLine_one, parseItem_period, he]
  simp [Step.andThen, Builder.begin, Builder.build, Builder.buildPeriodic, liftBuilder, Step.wrap, building]

/-- The items of a line that ends what is open begin by ending it. -/
theorem ending_fails (fs : FileSystem) (H : Handlers σ) (n : Nat) {hint : Str} {L : Line} (hL : L.Ending) {li : LineItems} (hl : L.Items hint li)
    {st st' : PState σ} {f : Failure} (he : endTransaction H st = (st', some f)) : runLine (parseItem fs H n) li st = (st', some f) := by
  cases L with
  | blank => cases hl; rw [runLine_one, parseItem_empty, he]
  | header d s p note => rcases hl with rfl | ⟨rfl, rfl⟩ <;> rw [runLine_ok, runItems_cons, parseItem_date, he] <;> rfl
  | budget p => cases hl; rw [runLine_one, parseItem_period, he]; rfl
  | _ => exact hL.elim

end

/-- A note below a posting. -/
theorem settle_last (t : Transaction) (p : Posting) (qs : List Posting) (q q' : Posting) :
    settle t p (qs ++ [q']) = ((settle t p (qs ++ [q])).1, q') := by
  rw [settle_snoc, settle_snoc]

theorem posting_account [Unicode] {l account : Str} {amount : Option (Str × Str)} (h : LineIs l (.posting account amount)) : account ≠ [] := by
  cases h with
  | posting _ h _ => exact account_ne_nil h
  | amount _ h => exact account_ne_nil h

/-- The state of the builder when an entry of either kind is open. -/
theorem at_open {pg : Page} {b : Builder} (h : pg.At b) (hc : ¬ pg.Closed) :
    ∃ (kind : Option Period) (t : Transaction) (l : Bool) (ps : List Posting) (prev : Option ItemType), (∀ p ∈ ps, p.accountPath ≠ []) ∧ MayFollow prev ∧
      b = building kind (settle t { linked := l } ps).1 (settle t { linked := l } ps).2 prev ∧
      ∀ p : Posting, p.accountPath ≠ [] → ∀ prev', MayFollow prev' →
        (pg.add p).At (building kind (settle t { linked := l } (ps ++ [p])).1 (settle t { linked := l } (ps ++ [p])).2 prev') := by
  have key : ∀ (ps : List Posting) (p : Posting), (∀ q ∈ ps, q.accountPath ≠ []) → p.accountPath ≠ [] → ∀ q ∈ ps ++ [p], q.accountPath ≠ [] := by
    intro ps p h1 h2 q hq
    rcases List.mem_append.1 hq with hq | hq
    · exact h1 q hq
    · rw [List.mem_singleton] at hq
      rw [hq]
      exact h2
  cases pg with
  | closed b => exact absurd ⟨b, rfl⟩ hc
  | entry hd ps =>
    obtain ⟨h1, h2, h3, h4, prev, hp, rfl⟩ := h
    exact ⟨none, hd, true, ps, prev, h4, hp, rfl, fun p hp' prev' hprev => ⟨h1, h2, h3, key ps p h4 hp', prev', hprev, rfl⟩⟩
  | budget m ps =>
    obtain ⟨h4, prev, per, hp, hm, hi, rfl⟩ := h
    exact ⟨some per, {}, false, ps, prev, h4, hp, rfl, fun p hp' prev' hprev => ⟨key ps p h4 hp', prev', per, hprev, hm, hi, rfl⟩⟩

/-- What running a line comes to, with any handlers. -/
def Comes {σ : Type} (H : Handlers σ) (lib : Err → Str) (label : Str) (st : PState σ) (run : PState σ × Option Failure)
    (ms : List Meant) (out : Except Fault Page) : Prop :=
  ∃ calls, List.Forall₂ (fun x c => x.1.Call x.2 c) (labelled label ms) calls ∧
    (∀ u', H.replay calls st.user = (u', none) → run.1.user = u' ∧
      (∀ pg', out = .ok pg' → run.2 = none ∧ pg'.At run.1.builder ∧ run.1.files = st.files) ∧
      ∀ f, out = .error f → ∃ x, run.2 = some x ∧ f.IsOf lib x) ∧
    ∀ u' f, H.replay calls st.user = (u', some f) → run.1.user = u' ∧ run.2 = some f

section
variable {σ : Type} {H : Handlers σ} {lib : Err → Str} {label : Str} {st st' : PState σ} {run : PState σ × Option Failure} {ms : List Meant} {pg : Page}
  {f : Fault} {x : Failure} {calls : List Call}

theorem Comes.ends_ok (k : List.Forall₂ (fun x c => x.1.Call x.2 c) (labelled label ms) calls)
    (h1 : ∀ u', H.replay calls st.user = (u', none) → ∃ st', run = (st', none) ∧ pg.At st'.builder ∧ st'.files = st.files ∧ st'.user = u')
    (h2 : ∀ u' f, H.replay calls st.user = (u', some f) → ∃ st', run = (st', some f) ∧ st'.user = u') : Comes H lib label st run ms (.ok pg) := by
  refine ⟨calls, k, ?_, ?_⟩
  · intro u' hu
    obtain ⟨st', rfl, a1, a2, a3⟩ := h1 u' hu
    refine ⟨a3, ?_, by simp⟩
    rintro pg' ⟨⟩
    exact ⟨rfl, a1, a2⟩
  · intro u' f hu
    obtain ⟨st', rfl, a1⟩ := h2 u' f hu
    exact ⟨a1, rfl⟩

theorem Comes.ends_fails (k : List.Forall₂ (fun x c => x.1.Call x.2 c) (labelled label ms) calls)
    (h1 : ∀ u', H.replay calls st.user = (u', none) → ∃ st' x, run = (st', some x) ∧ f.IsOf lib x ∧ st'.user = u')
    (h2 : ∀ u' f, H.replay calls st.user = (u', some f) → ∃ st', run = (st', some f) ∧ st'.user = u') : Comes H lib label st run ms (.error f) := by
  refine ⟨calls, k, ?_, ?_⟩
  · intro u' hu
    obtain ⟨st', x, rfl, a1, a2⟩ := h1 u' hu
    refine ⟨a2, by simp, ?_⟩
    rintro f' ⟨⟩
    exact ⟨x, rfl, a1⟩
  · intro u' f hu
    obtain ⟨st', rfl, a1⟩ := h2 u' f hu
    exact ⟨a1, rfl⟩

theorem Comes.ok (h1 : run = (st', none)) (h2 : pg.At st'.builder) (h3 : st'.files = st.files) (h4 : st'.user = st.user) :
    Comes H lib label st run [] (.ok pg) := by
  refine .ends_ok .nil ?_ ?_
  · rintro u' ⟨⟩
    exact ⟨st', h1, h2, h3, h4⟩
  · rintro u' f ⟨⟩

theorem Comes.fails (h1 : run = (st', some x)) (h2 : f.IsOf lib x) (h4 : st'.user = st.user) : Comes H lib label st run [] (.error f) := by
  refine .ends_fails .nil ?_ ?_
  · rintro u' ⟨⟩
    exact ⟨st', x, h1, h2, h4⟩
  · rintro u' f ⟨⟩

end

/-- The parser does what the line does. -/
theorem effect_runs [Unicode] {σ : Type} (H : Handlers σ) (fs : FileSystem) (lib : Err → Str) (n : Nat) {path label l : Str} {pg : Page} {L : Line} {ms : List Meant}
    {out : Except Fault Page} (he : Effect pg L ms out) (hL : LineIs l L) {st : PState σ} (h : pg.At st.builder)
    (hf : st.files.getLast? = some label) : Comes H lib label st (runLine (parseItem fs H n) (lineItems path l) st) ms out := by
  have hli := lineIs_items path hL
  generalize hg : lineItems path l = li at hli
  obtain ⟨k1, k2⟩ := at_ends H h hf
  cases he with
  | passed =>
    cases hli
    exact .ok rfl h rfl rfl
  | @unknown _ e =>
    cases hli
    refine .fails (runLine_err _ _ _) ⟨e, ?_, rfl⟩ rfl
    cases hL with
    | unknown hu => cases hu <;> rfl
  | @wrong _ L r hend hr =>
    obtain ⟨st', e, e1, e2, e3⟩ := k2 r hr
    exact .fails (ending_fails fs _ n hend hli e1) ⟨e, e2 lib, rfl⟩ e3
  | blank hr =>
    obtain ⟨calls, b', e1, e2, e3, e4, e5⟩ := k1 _ hr
    refine .ends_ok e1 (fun u' hu => ⟨⟨b', st.files, u'⟩, ?_, e2, rfl, rfl⟩) fun u' f hu => ?_
    · cases hli
      rw [runLine_one, parseItem_empty, e4 u' hu]
    · obtain ⟨st', r1, r2⟩ := e5 u' f hu
      exact ⟨st', ending_fails fs H n (L := .blank) trivial hli r1, r2⟩
  | @header _ _ date state payee note sep day hr d1 d2 d3 =>
    obtain ⟨calls, b', e1, e2, e3, e4, e5⟩ := k1 _ hr
    refine .ends_ok e1 (fun u' hu => ?_) fun u' f hu => ?_
    · obtain ⟨prev, hp, hrun⟩ := header_runs fs H n hli (e4 u' hu) e3 (((C10_dates_accepted date).1 day).2 ⟨sep, d1, d2, d3⟩)
      exact ⟨_, hrun, ⟨rfl, rfl, d3, by simp, prev, hp, rfl⟩, rfl, rfl⟩
    · obtain ⟨st', r1, r2⟩ := e5 u' f hu
      exact ⟨st', ending_fails fs H n (L := .header _ _ _ _) trivial hli r1, r2⟩
  | @badDate _ _ date state payee note hr d1 d2 =>
    obtain ⟨calls, b', e1, e2, e3, e4, e5⟩ := k1 _ hr
    refine .ends_fails e1 (fun u' hu => ?_) fun u' f hu => ?_
    · rcases (C10_dates_accepted date).2.1 d2 with ⟨x, hx⟩ | ⟨x, hx⟩
      · obtain ⟨sep, hs⟩ := ((C10_dates_accepted date).1 x).1 hx
        exact absurd ⟨sep, x, hs⟩ d1
      · obtain ⟨s', r1, r2⟩ := header_date_fails fs H n hli (e4 u' hu) hx
        exact ⟨s', _, r1, ⟨_, List.prefix_append _ _, rfl⟩, r2⟩
    · obtain ⟨st', r1, r2⟩ := e5 u' f hu
      exact ⟨st', ending_fails fs H n (L := .header _ _ _ _) trivial hli r1, r2⟩
  | @shortDate _ _ date state payee note hr d1 =>
    obtain ⟨calls, b', e1, e2, e3, e4, e5⟩ := k1 _ hr
    refine .ends_fails e1 (fun u' hu => ?_) fun u' f hu => ?_
    · obtain ⟨s', r1, r2⟩ := header_date_fails fs H n hli (e4 u' hu) ((C10_dates_accepted date).2.2 d1)
      exact ⟨s', _, r1, (rfl : Failure.wrap .parsingDate (.panic .indexOutOfRange) = Failure.panic .indexOutOfRange), r2⟩
    · obtain ⟨st', r1, r2⟩ := e5 u' f hu
      exact ⟨st', ending_fails fs H n (L := .header _ _ _ _) trivial hli r1, r2⟩
  | @budget _ _ period month hr d1 d2 =>
    obtain ⟨calls, b', e1, e2, e3, e4, e5⟩ := k1 _ hr
    refine .ends_ok e1 (fun u' hu => ?_) fun u' f hu => ?_
    · cases hli
      have hper := (C60_period_read_partial period).1 month d1 d2
      exact ⟨_, period_runs fs H n period (e4 u' hu) e3, ⟨by simp, some .periodItem, parsePeriod period, by simp [MayFollow], by rw [hper], by rw [hper], rfl⟩,
        rfl, rfl⟩
    · obtain ⟨st', r1, r2⟩ := e5 u' f hu
      exact ⟨st', ending_fails fs H n (L := .budget _) trivial hli r1, r2⟩
  | @badPeriod _ _ period hr d1 =>
    obtain ⟨calls, b', e1, e2, e3, e4, e5⟩ := k1 _ hr
    refine .ends_ok e1 (fun u' hu => ?_) fun u' f hu => ?_
    · cases hli
      have hper : parsePeriod period = {} := (C60_period_read_partial period).2 d1
      exact ⟨_, period_runs fs H n period (e4 u' hu) e3, ⟨by simp, some .periodItem, parsePeriod period, by simp [MayFollow], by rw [hper]; rfl, by rw [hper], rfl⟩,
        rfl, rfl⟩
    · obtain ⟨st', r1, r2⟩ := e5 u' f hu
      exact ⟨st', ending_fails fs H n (L := .budget _) trivial hli r1, r2⟩
  | @entryNote hd text =>
    cases hli
    obtain ⟨bd, fl, us⟩ := st
    obtain ⟨h1, h2, h3, h4, prev, hp, rfl⟩ := h
    refine .ok (st' := ⟨building none (settle { hd with notes := hd.notes ++ [text] } { linked := true } []).1 { linked := true } (some .commentItem), fl, us⟩) ?_
      ⟨h1, h2, h3, by simp, some .commentItem, by simp [MayFollow], rfl⟩ rfl rfl
    rw [runLine_one, parseItem_build fs _ n .commentItem rfl, build_note _ _ rfl]
    rfl
  | @postingNote hd ps p text =>
    cases hli
    obtain ⟨bd, fl, us⟩ := st
    obtain ⟨h1, h2, h3, h4, prev, hp, rfl⟩ := h
    have hrun : runLine (parseItem fs H n) { items := [(.commentItem, text)] }
        (⟨building none (settle hd { linked := true } (ps ++ [p])).1 (settle hd { linked := true } (ps ++ [p])).2 prev, fl, us⟩ : PState σ) =
        (⟨building none (settle hd { linked := true } (ps ++ [{ p with comments := p.comments ++ [text] }])).1
          (settle hd { linked := true } (ps ++ [{ p with comments := p.comments ++ [text] }])).2 (some .commentItem), fl, us⟩, none) := by
      rw [runLine_one, parseItem_build fs _ n .commentItem rfl, settle_snoc, build_comment _ _ _ (h4 p (by simp)), settle_snoc]
      rfl
    refine .ok hrun ⟨h1, h2, h3, ?_, some .commentItem, by simp [MayFollow], rfl⟩ rfl rfl
    intro q hq
    rcases List.mem_append.1 hq with hq | hq
    · exact h4 q (by simp [hq])
    · rw [List.mem_singleton] at hq
      subst hq
      exact h4 p (by simp)
  | @budgetNote m ps p text =>
    cases hli
    obtain ⟨bd, fl, us⟩ := st
    obtain ⟨h4, prev, per, hp, hm, hi, rfl⟩ := h
    have hrun : runLine (parseItem fs H n) { items := [(.commentItem, text)] }
        (⟨building (some per) (settle {} {} (ps ++ [p])).1 (settle {} {} (ps ++ [p])).2 prev, fl, us⟩ : PState σ) =
        (⟨building (some per) (settle {} {} (ps ++ [{ p with comments := p.comments ++ [text] }])).1
          (settle {} {} (ps ++ [{ p with comments := p.comments ++ [text] }])).2 (some .commentItem), fl, us⟩, none) := by
      rw [runLine_one, parseItem_build fs _ n .commentItem rfl, settle_snoc, build_comment _ _ _ (h4 p (by simp)), settle_snoc]
      rfl
    refine .ok hrun ⟨?_, some .commentItem, per, by simp [MayFollow], hm, hi, rfl⟩ rfl rfl
    intro q hq
    rcases List.mem_append.1 hq with hq | hq
    · exact h4 q (by simp [hq])
    · rw [List.mem_singleton] at hq
      subst hq
      exact h4 p (by simp)
  | @strayNote _ text hc =>
    cases hli
    refine .fails (st' := st) (x := .panic .nilDereference) ?_ rfl rfl
    rw [runLine_one, parseItem_build fs _ n .commentItem rfl]
    obtain ⟨⟨tt, tr, pe, cu, pv⟩, fl, us⟩ := st
    rcases hc with ⟨b, rfl⟩ | ⟨m, rfl⟩
    · have hi : (⟨tt, tr, pe, cu, pv⟩ : Builder).Idle := by
        cases b with
        | false => have h : (⟨tt, tr, pe, cu, pv⟩ : Builder) = {} := h; rw [h]; exact ⟨rfl, rfl, rfl⟩
        | true => exact h.1
      obtain ⟨i1, i2, i3⟩ := hi
      simp only at i1 i2 i3
      subst i1 i2 i3
      cases tt <;> simp [liftBuilder, Builder.build, Builder.buildNormal, Builder.buildPeriodic, Step.andThen]
    · obtain ⟨h4, prev, per, hp, hm, hi, hb⟩ := h
      simp only [building, settle, Builder.mk.injEq] at hb
      obtain ⟨rfl, rfl, rfl, rfl, rfl⟩ := hb
      simp [liftBuilder, Builder.build, Builder.buildNormal, Builder.buildPeriodic, Step.andThen]
  | @posting _ account hc =>
    cases hli
    obtain ⟨bd, fl, us⟩ := st
    obtain ⟨kind, t, b, ps, prev, q1, q2, rfl, q3⟩ := at_open h hc
    exact .ok (posting_runs fs H n kind t b q1 q2 fl us account).1
      (q3 { linked := true, accountPath := account } (posting_account hL) _ (by simp [MayFollow])) rfl rfl
  | @amount _ account commodity number q hc hq =>
    cases hli
    obtain ⟨bd, fl, us⟩ := st
    obtain ⟨kind, t, b, ps, prev, q1, q2, rfl, q3⟩ := at_open h hc
    exact .ok (((posting_runs fs H n kind t b q1 q2 fl us account).2 commodity number).1 q ((number_iff _ _).2 hq))
      (q3 { linked := true, accountPath := account, amount := some ⟨commodity, q⟩ } (posting_account hL) _ (by simp [MayFollow])) rfl rfl
  | @badAmount _ account commodity number hc hn hq =>
    cases hli
    obtain ⟨bd, fl, us⟩ := st
    obtain ⟨kind, t, b, ps, prev, q1, q2, rfl, q3⟩ := at_open h hc
    obtain ⟨e, he⟩ := number_error hq hn
    obtain ⟨s', r1, r2⟩ := ((posting_runs fs H n kind t b q1 q2 fl us account).2 commodity number).2.1 e he
    exact .fails r1 ⟨.parsingAmount e, List.prefix_append _ _, rfl⟩ r2
  | @noAmount _ account commodity hc =>
    cases hli
    obtain ⟨bd, fl, us⟩ := st
    obtain ⟨kind, t, b, ps, prev, q1, q2, rfl, q3⟩ := at_open h hc
    obtain ⟨s', r1, r2⟩ := ((posting_runs fs H n kind t b q1 q2 fl us account).2 commodity []).2.2 rfl
    exact .fails r1 rfl r2
  | @firstPosting account amount =>
    obtain ⟨bd, fl, us⟩ := st
    have hb : bd = {} := h
    subst hb
    refine .fails (st' := ⟨{}, fl, us⟩) (x := .err (.expected .accountItem)) ?_ ⟨.expected .accountItem, text_expected lib, rfl⟩ rfl
    rcases amount with _ | ⟨c, q⟩ <;> cases hli <;> rw [runLine_ok, runItems_cons, parseItem_build fs _ n .accountItem rfl] <;> rfl
  | @strayPosting account amount =>
    obtain ⟨⟨tt, tr, pe, cu, pv⟩, fl, us⟩ := st
    obtain ⟨⟨i1, i2, i3⟩, hm⟩ := h
    simp only at i1 i2 i3 hm
    subst i1 i2 i3
    have hm : ¬ (pv ≠ some .commentItem ∧ pv ≠ some .transactionHeaderCommentItem ∧
        pv ≠ some .payeeItem ∧ pv ≠ some .amountItem ∧ pv ≠ some .accountItem ∧ pv ≠ some .periodItem) := by
      unfold MayFollow at hm
      tauto
    refine .fails (st' := ⟨⟨tt, none, none, none, pv⟩, fl, us⟩) (x := .panic .nilDereference) ?_ rfl rfl
    have hacc : (⟨tt, none, none, none, pv⟩ : Builder).build .accountItem account = (⟨tt, none, none, none, pv⟩, some (.panic .nilDereference)) := by
      cases tt <;> simp only [Builder.build, Builder.buildNormal, Builder.buildPeriodic, Step.andThen, if_neg hm]
    rcases amount with _ | ⟨c, q⟩ <;> cases hli <;> rw [runLine_ok, runItems_cons, parseItem_build fs _ n .accountItem rfl, hacc] <;> rfl

/-! ### Files -/

/-- How the first line of a file is read. -/
theorem firstLine_read {bytes : List UInt8} {o : Option Str} {rest : List UInt8} (h : FirstLine bytes o rest) :
    (∀ l, o = some l → ∃ b, runes b = l ∧ readLines bytes = .line b :: readLines rest) ∧ (o = none → ∃ t, readLines bytes = .tooLong :: t) := by
  cases h with
  | @lf l r h1 h2 h3 =>
    refine ⟨?_, by simp⟩
    rintro _ ⟨⟩
    exact ⟨l, rfl, by rw [readLines_line _ _ h1, terminatedLine_plain h2 h3]⟩
  | @crlf l r h1 h2 =>
    refine ⟨?_, by simp⟩
    rintro _ ⟨⟩
    refine ⟨l, rfl, ?_⟩
    have e : l ++ 13 :: 10 :: rest = (l ++ [13]) ++ 10 :: rest := by simp
    rw [e, readLines_line _ _ (by simp [h1]), terminatedLine_cr h2]
  | @last l h1 h2 h3 =>
    refine ⟨?_, by simp⟩
    rintro _ ⟨⟩
    refine ⟨bytes, rfl, ?_⟩
    rw [readLines_last _ h2, if_neg h1, unterminatedLine, if_neg (by unfold bufSize; omega)]
    rfl
  | @long l r h1 h2 h3 =>
    refine ⟨by simp, fun _ => ?_⟩
    rcases h3 with rfl | h3
    · refine ⟨[], ?_⟩
      rw [List.append_nil, readLines_last _ h1, if_neg (by rintro rfl; simp at h2), unterminatedLine, if_pos (by unfold bufSize; omega)]
    · cases rest with
      | nil => cases h3
      | cons x r =>
        cases h3
        refine ⟨readLines r, ?_⟩
        rw [readLines_line _ _ h1, terminatedLine, if_pos (by unfold bufSize; omega)]

theorem newline_split (bytes : List UInt8) : ∃ l r, bytes = l ++ r ∧ (10 : UInt8) ∉ l ∧ (r = [] ∨ r.head? = some 10) := by
  induction bytes with
  | nil => exact ⟨[], [], rfl, by simp, Or.inl rfl⟩
  | cons b bytes ih =>
    by_cases hb : b = 10
    · exact ⟨[], b :: bytes, rfl, by simp, Or.inr (by rw [hb]; rfl)⟩
    · obtain ⟨l, r, rfl, h1, h2⟩ := ih
      exact ⟨b :: l, r, rfl, by simp [h1, Ne.symm hb], h2⟩

/-- A file that is not empty has a first line. -/
theorem firstLine_exists (bytes : List UInt8) (h : bytes ≠ []) : ∃ o rest, FirstLine bytes o rest ∧ rest.length < bytes.length := by
  obtain ⟨l, r, rfl, h1, h2⟩ := newline_split bytes
  by_cases h3 : 4096 ≤ l.length
  · refine ⟨none, r, .long h1 h3 h2, ?_⟩
    rw [List.length_append]
    omega
  rcases h2 with rfl | h2
  · rw [List.append_nil] at h ⊢
    exact ⟨_, [], .last h h1 (by omega), List.length_pos_iff.2 h⟩
  · cases r with
    | nil => cases h2
    | cons x r =>
      cases h2
      by_cases h4 : l.getLast? = some 13
      · obtain ⟨l', rfl⟩ := List.getLast?_eq_some_iff.1 h4
        rw [List.length_append, List.length_singleton] at h3
        refine ⟨some (runes l'), r, ?_, by simp; omega⟩
        have e : l' ++ [13] ++ 10 :: r = l' ++ 13 :: 10 :: r := by simp
        rw [e]
        exact .crlf (fun hm => h1 (by simp [hm])) (by omega)
      · exact ⟨_, r, .lf h1 (by omega) h4, by simp; omega⟩

/-- Every line but an include directive does something. -/
theorem effect_exists (pg : Page) {L : Line} (hL : ∀ name, L ≠ .inclusion name) : ∃ ms out, Effect pg L ms out := by
  obtain ⟨r, hr⟩ := ends_exists pg
  have hpg : pg.Closed ∨ ¬ pg.Closed := em _
  cases L with
  | passed => exact ⟨_, _, .passed⟩
  | unknown e => exact ⟨_, _, .unknown⟩
  | inclusion name => exact absurd rfl (hL name)
  | blank =>
    rcases r with r | ms
    · exact ⟨_, _, .wrong trivial hr⟩
    · exact ⟨_, _, .blank hr⟩
  | header date state payee note =>
    rcases r with r | ms
    · exact ⟨_, _, .wrong trivial hr⟩
    · by_cases hd : ReadableDate date
      · obtain ⟨sep, day, d1, d2, d3⟩ := hd
        exact ⟨_, _, .header hr d1 d2 d3⟩
      · by_cases h5 : 5 ≤ date.length
        · exact ⟨_, _, .badDate hr hd h5⟩
        · exact ⟨_, _, .shortDate hr (by omega)⟩
  | budget period =>
    rcases r with r | ms
    · exact ⟨_, _, .wrong trivial hr⟩
    · by_cases hp : ∃ month : Date, month.Real ∧ WrittenYM '-' period month
      · obtain ⟨month, d1, d2⟩ := hp
        exact ⟨_, _, .budget hr d2 d1⟩
      · exact ⟨_, _, .badPeriod hr fun m h1 h2 => hp ⟨m, h1, h2⟩⟩
  | note text =>
    cases pg with
    | closed b => exact ⟨_, _, .strayNote (Or.inl ⟨b, rfl⟩)⟩
    | entry h ps =>
      rcases List.eq_nil_or_concat ps with rfl | ⟨qs, q, rfl⟩
      · exact ⟨_, _, .entryNote⟩
      · rw [List.concat_eq_append]
        exact ⟨_, _, .postingNote⟩
    | budget m ps =>
      rcases List.eq_nil_or_concat ps with rfl | ⟨qs, q, rfl⟩
      · exact ⟨_, _, .strayNote (Or.inr ⟨m, rfl⟩)⟩
      · rw [List.concat_eq_append]
        exact ⟨_, _, .budgetNote⟩
  | posting account amount =>
    rcases hpg with ⟨b, rfl⟩ | hpg
    · cases b
      · exact ⟨_, _, .firstPosting⟩
      · exact ⟨_, _, .strayPosting⟩
    · rcases amount with _ | ⟨commodity, number⟩
      · exact ⟨_, _, .posting hpg⟩
      · by_cases hn : number = []
        · subst hn
          exact ⟨_, _, .noAmount hpg⟩
        · by_cases hq : ∃ q, NumberMeans number q
          · obtain ⟨q, hq⟩ := hq
            exact ⟨_, _, .amount hpg hq⟩
          · exact ⟨_, _, .badAmount hpg hn fun q hq' => hq ⟨q, hq'⟩⟩

/-- Whatever is in the files, reading takes some course. -/
theorem course_exists [Unicode] (fs : FileSystem) (lib : Err → Str) (root : Str) (k : Nat) :
    ∀ (bytes : List UInt8) (path label : Str) (n : Nat) (pg : Page), ∃ js out, Course fs lib root k path label n pg bytes js out := by
  induction k with
  | zero =>
    intro bytes
    induction hN : bytes.length using Nat.strong_induction_on generalizing bytes with
    | _ N ih =>
    intro path label n pg
    by_cases hb : bytes = []
    · subst hb
      obtain ⟨r | ms, hr⟩ := ends_exists pg
      · exact ⟨_, _, .wrong hr⟩
      · exact ⟨_, _, .done hr⟩
    · obtain ⟨o, rest, h1, h2⟩ := firstLine_exists bytes hb
      rcases o with _ | l
      · exact ⟨_, _, .long h1⟩
      · obtain ⟨L, hL⟩ := lineIs_exists l
        by_cases hi : ∃ name, L = .inclusion name
        · obtain ⟨name, rfl⟩ := hi
          exact ⟨_, _, .missing h1 hL (Or.inr rfl)⟩
        · obtain ⟨ms, f | pg', he⟩ := effect_exists pg (L := L) fun name h => hi ⟨name, h⟩
          · exact ⟨_, _, .fault h1 hL he⟩
          · obtain ⟨js, out, hc⟩ := ih rest.length (hN ▸ h2) rest rfl path label (n + 1) pg'
            exact ⟨_, _, .line h1 hL he hc⟩
  | succ k ihk =>
    intro bytes
    induction hN : bytes.length using Nat.strong_induction_on generalizing bytes with
    | _ N ih =>
    intro path label n pg
    by_cases hb : bytes = []
    · subst hb
      obtain ⟨r | ms, hr⟩ := ends_exists pg
      · exact ⟨_, _, .wrong hr⟩
      · exact ⟨_, _, .done hr⟩
    · obtain ⟨o, rest, h1, h2⟩ := firstLine_exists bytes hb
      rcases o with _ | l
      · exact ⟨_, _, .long h1⟩
      · obtain ⟨L, hL⟩ := lineIs_exists l
        by_cases hi : ∃ name, L = .inclusion name
        · obtain ⟨name, rfl⟩ := hi
          cases hfs : fs (splitDir path ++ name) with
          | none => exact ⟨_, _, .missing h1 hL (Or.inl hfs)⟩
          | some b =>
            obtain ⟨js, rep | pg', hc⟩ := ihk b (splitDir path ++ name) (splitDir path ++ name) 1 pg
            · exact ⟨_, _, .within h1 hL hfs hc⟩
            · obtain ⟨js', out, hc'⟩ := ih rest.length (hN ▸ h2) rest rfl path root (n + 1) pg'
              exact ⟨_, _, .includes h1 hL hfs hc hc'⟩
        · obtain ⟨ms, f | pg', he⟩ := effect_exists pg (L := L) fun name h => hi ⟨name, h⟩
          · exact ⟨_, _, .fault h1 hL he⟩
          · obtain ⟨js, out, hc⟩ := ih rest.length (hN ▸ h2) rest rfl path label (n + 1) pg'
            exact ⟨_, _, .line h1 hL he hc⟩

theorem within_isOf {lib : Err → Str} {rep : Report} {f : Failure} (h : rep.IsOf lib f) (path : Str) (n : Nat) :
    (rep.within path n).IsOf lib ((f.wrap .errorAt).wrap (.atLine path n)) := by
  cases rep with
  | message via place reason =>
    obtain ⟨e, h1, rfl⟩ := h
    exact ⟨e, h1, rfl⟩
  | crashes p =>
    have h : f = .panic p := h
    subst h
    exact (rfl : ((Failure.panic p).wrap .errorAt).wrap _ = Failure.panic p)
  | quits =>
    have h : f = .fatal := h
    subst h
    exact (rfl : (Failure.fatal.wrap .errorAt).wrap _ = Failure.fatal)

theorem report_isOf {lib : Err → Str} {f : Fault} {x : Failure} (h : f.IsOf lib x) (path : Str) (n : Nat) :
    (f.report path n).IsOf lib (x.wrap (.atLine path n)) := by
  cases f with
  | error reason =>
    obtain ⟨e, h1, rfl⟩ := h
    exact ⟨e, h1, rfl⟩
  | crash p =>
    have h : x = .panic p := h
    subst h
    exact (rfl : (Failure.panic p).wrap _ = Failure.panic p)

/-- What reading a file comes to, with handlers that get through. -/
def Takes {σ : Type} (H : Handlers σ) (lib : Err → Str) (root : Str) (st : PState σ) (run : PState σ × Option Failure)
    (js : List (Meant × Str)) (out : Except Report Page) : Prop :=
  ∃ calls, List.Forall₂ (fun x c => x.1.Call x.2 c) js calls ∧ ∀ u', H.replay calls st.user = (u', none) → run.1.user = u' ∧
    (∀ pg', out = .ok pg' → run.2 = none ∧ pg'.At run.1.builder ∧ run.1.files.head? = some root) ∧
    ∀ rep, out = .error rep → ∃ x, run.2 = some x ∧ rep.IsOf lib x

section
variable {σ : Type} {H : Handlers σ} {lib : Err → Str} {root : Str} {st st' : PState σ} {run : PState σ × Option Failure} {js js' : List (Meant × Str)}
  {calls : List Call} {rep : Report} {x : Failure} {out : Except Report Page}

theorem Takes.fails (h1 : run = (st', some x)) (h2 : rep.IsOf lib x) (h4 : st'.user = st.user) : Takes H lib root st run [] (.error rep) := by
  subst h1
  refine ⟨[], .nil, ?_⟩
  rintro u' ⟨⟩
  refine ⟨h4, by simp, ?_⟩
  rintro f' ⟨⟩
  exact ⟨x, rfl, h2⟩

theorem replay_append_ok {cs ds : List Call} {u v : σ} (h : H.replay (cs ++ ds) u = (v, none)) :
    ∃ w, H.replay cs u = (w, none) ∧ H.replay ds w = (v, none) := by
  rw [replay_append] at h
  generalize H.replay cs u = r at h ⊢
  obtain ⟨w, _ | f⟩ := r
  · exact ⟨w, rfl, h⟩
  · cases h

theorem replay_then {cs : List Call} (ds : List Call) {u w : σ} (h : H.replay cs u = (w, none)) : H.replay (cs ++ ds) u = H.replay ds w := by
  rw [replay_append, h]
  rfl

end

/-- The handlers that are not there. -/
def noHandlers : Handlers Unit where
  th := none
  ph := none

theorem replay_noHandlers (calls : List Call) (u : Unit) : noHandlers.replay calls u = ((), none) := by
  induction calls with
  | nil => rfl
  | cons c cs ih =>
    rw [Handlers.replay]
    cases c <;> exact ih

theorem effect_keeps [Unicode] {l : Str} {pg : Page} {L : Line} {ms : List Meant} {out : Except Fault Page} (label : Str) (he : Effect pg L ms out)
    (hL : LineIs l L) (h : ∃ b, pg.At b) :
    (∃ calls, List.Forall₂ (fun (x : Meant × Str) c => x.1.Call x.2 c) (labelled label ms) calls) ∧ ∀ pg', out = .ok pg' → ∃ b, pg'.At b := by
  obtain ⟨b, hb⟩ := h
  obtain ⟨calls, h1, h2, _⟩ := effect_runs noHandlers noFiles (fun _ => []) 0 (path := label) (label := label) he hL (st := ⟨b, [label], ()⟩) hb rfl
  exact ⟨⟨calls, h1⟩, fun pg' hp => ⟨_, ((h2 () (replay_noHandlers _ _)).2.1 pg' hp).2.1⟩⟩

theorem ends_keeps {pg : Page} {ms : List Meant} (label : Str) (he : pg.Ends (.ok ms)) (h : ∃ b, pg.At b) :
    (∃ calls, List.Forall₂ (fun (x : Meant × Str) c => x.1.Call x.2 c) (labelled label ms) calls) ∧ ∃ b, pg.shut.At b := by
  obtain ⟨b, hb⟩ := h
  obtain ⟨calls, b', h1, h2, _⟩ := (at_ends noHandlers (st := ⟨b, [label], ()⟩) hb rfl).1 ms he
  exact ⟨⟨calls, h1⟩, b', h2⟩

theorem course_keeps [Unicode] {fs : FileSystem} {lib : Err → Str} {root : Str} {k : Nat} {path label : Str} {n : Nat} {pg : Page}
    {bytes : List UInt8} {js : List (Meant × Str)} {out : Except Report Page} (h : Course fs lib root k path label n pg bytes js out) :
    (∃ b, pg.At b) → (∃ calls, List.Forall₂ (fun (x : Meant × Str) c => x.1.Call x.2 c) js calls) ∧ ∀ pg', out = .ok pg' → ∃ b, pg'.At b := by
  induction h with
  | done hr =>
    intro h
    obtain ⟨h1, h2⟩ := ends_keeps _ hr h
    refine ⟨h1, ?_⟩
    rintro pg' ⟨⟩
    exact h2
  | wrong _ => exact fun _ => ⟨⟨[], .nil⟩, by simp⟩
  | long _ => exact fun _ => ⟨⟨[], .nil⟩, by simp⟩
  | missing _ _ _ => exact fun _ => ⟨⟨[], .nil⟩, by simp⟩
  | line _ hL he _ ih =>
    intro h
    obtain ⟨⟨cs, h1⟩, h2⟩ := effect_keeps _ he hL h
    obtain ⟨⟨ds, h3⟩, h4⟩ := ih (h2 _ rfl)
    exact ⟨⟨cs ++ ds, List.rel_append h1 h3⟩, h4⟩
  | fault _ hL he =>
    intro h
    exact ⟨(effect_keeps _ he hL h).1, by simp⟩
  | includes _ _ _ _ _ ih1 ih2 =>
    intro h
    obtain ⟨⟨cs, h1⟩, h2⟩ := ih1 h
    obtain ⟨⟨ds, h3⟩, h4⟩ := ih2 (h2 _ rfl)
    exact ⟨⟨cs ++ ds, List.rel_append h1 h3⟩, h4⟩
  | within _ _ _ _ ih =>
    intro h
    exact ⟨(ih h).1, by simp⟩

/-- The parser follows the course of reading. -/
theorem course_runs [Unicode] {σ : Type} (H : Handlers σ) {fs : FileSystem} {lib : Err → Str} {root : Str} {k : Nat} {path label : Str} {n : Nat} {pg : Page}
    {bytes : List UInt8} {js : List (Meant × Str)} {out : Except Report Page} (h : Course fs lib root k path label n pg bytes js out) :
    ∀ st : PState σ, pg.At st.builder → st.files.head? = some root → st.files.getLast? = some label →
      Takes H lib root st ((feedLines (parseItem fs H k) path n (readLines bytes) st).andThen (parseItem fs H k .eofItem [])) js out := by
  induction h with
  | @done k path label n pg ms hr =>
    intro st h1 h2 h3
    obtain ⟨calls, b', e1, e2, e3, e4, e5⟩ := (at_ends H h1 h3).1 ms hr
    rw [show readLines [] = [] from rfl, feedLines, andThen_ok, parseItem_eof]
    refine ⟨calls, e1, fun u' hu => ?_⟩
    rw [e4 u' hu]
    refine ⟨rfl, ?_, by simp⟩
    rintro pg' ⟨⟩
    exact ⟨rfl, e2, h2⟩
  | @wrong k path label n pg r hr =>
    intro st h1 h2 h3
    obtain ⟨st', e, e1, e2, e3⟩ := (at_ends H h1 h3).2 r hr
    rw [show readLines [] = [] from rfl, feedLines, andThen_ok, parseItem_eof, e1]
    exact .fails rfl ⟨e, e2 lib, rfl⟩ e3
  | @long k path label n pg bytes rest hf =>
    intro st h1 h2 h3
    obtain ⟨t, ht⟩ := (firstLine_read hf).2 rfl
    rw [ht, feedLines]
    exact .fails (x := .fatal) rfl rfl rfl
  | @line k path label n pg bytes l rest L ms pg' js out hf hL he hc ih =>
    intro st h1 h2 h3
    obtain ⟨b, rfl, hb⟩ := (firstLine_read hf).1 _ rfl
    obtain ⟨calls, e1, e2, e3⟩ := effect_runs H fs lib k (path := path) he hL h1 h3
    rw [hb, feedLines]
    generalize runLine (parseItem fs H k) (lineItems path (runes b)) st = r at e2 e3
    obtain ⟨st', o⟩ := r
    generalize hg : H.replay calls st.user = y at e2 e3
    obtain ⟨w, _ | f⟩ := y
    · obtain ⟨e4, e5, _⟩ := e2 w rfl
      obtain ⟨e5, e6, e7⟩ := e5 pg' rfl
      simp only at e4 e5 e6 e7
      subst e5
      obtain ⟨calls', c1, c2⟩ := ih st' e6 (by rw [e7]; exact h2) (by rw [e7]; exact h3)
      refine ⟨calls ++ calls', List.rel_append e1 c1, fun u' hu => ?_⟩
      rw [replay_then calls' hg] at hu
      rw [e4] at c2
      exact c2 u' hu
    · obtain ⟨calls', c1⟩ : ∃ calls', List.Forall₂ (fun (x : Meant × Str) c => x.1.Call x.2 c) js calls' := by
        exact (course_keeps hc ((effect_keeps label he hL ⟨_, h1⟩).2 _ rfl)).1
      refine ⟨calls ++ calls', List.rel_append e1 c1, fun u' hu => ?_⟩
      obtain ⟨w', hw, _⟩ := replay_append_ok hu
      rw [hg] at hw
      cases hw
  | @fault k path label n pg bytes l rest L ms f hf hL he =>
    intro st h1 h2 h3
    obtain ⟨b, rfl, hb⟩ := (firstLine_read hf).1 _ rfl
    obtain ⟨calls, e1, e2, _⟩ := effect_runs H fs lib k (path := path) he hL h1 h3
    rw [hb, feedLines]
    generalize runLine (parseItem fs H k) (lineItems path (runes b)) st = r at e2
    obtain ⟨st', o⟩ := r
    refine ⟨calls, e1, fun u' hu => ?_⟩
    obtain ⟨e3, _, e4⟩ := e2 u' hu
    obtain ⟨x, e4, e5⟩ := e4 f rfl
    simp only at e3 e4
    subst e4
    refine ⟨e3, by simp, ?_⟩
    rintro _ ⟨⟩
    exact ⟨_, rfl, report_isOf e5 path n⟩
  | @missing k path label n pg bytes l rest name hf hL hm =>
    intro st h1 h2 h3
    obtain ⟨b, rfl, hb⟩ := (firstLine_read hf).1 _ rfl
    have hli : lineItems path (runes b) = _ := lineIs_items path hL
    have hp : parseItem fs H k .includeItem (splitDir path ++ name) st =
        ({ st with files := st.files ++ [splitDir path ++ name] }, some (.err (.openFile (splitDir path ++ name)))) := by
      cases k with
      | zero => rfl
      | succ k =>
        rcases hm with hm | hm
        · rw [parseItem_include, hm]
        · cases hm
    rw [hb, feedLines, hli, runLine_one, hp]
    exact .fails rfl ⟨.openFile (splitDir path ++ name), rfl, rfl⟩ rfl
  | @includes k path label n pg bytes l rest name b js pg' js' out hf hL hfs hc1 hc2 ih1 ih2 =>
    intro st h1 h2 h3
    obtain ⟨b', rfl, hb⟩ := (firstLine_read hf).1 _ rfl
    have hli : lineItems path (runes b') = _ := lineIs_items path hL
    obtain ⟨calls, e1, e2⟩ := ih1 { st with files := st.files ++ [splitDir path ++ name] } h1
      (by show (st.files ++ _).head? = _; rw [List.head?_append, h2]; rfl) (by simp)
    rw [hb, feedLines, hli, runLine_one]
    simp only [parseItem, hfs, lex, lexLoop_eq]
    generalize (feedLines (parseItem fs H k) (splitDir path ++ name) 1 (readLines b)
      ({ st with files := st.files ++ [splitDir path ++ name] } : PState σ)).andThen (parseItem fs H k .eofItem []) = r at e2
    obtain ⟨st', o⟩ := r
    simp only at e2
    generalize hg : H.replay calls st.user = y at e2
    obtain ⟨w, _ | f⟩ := y
    · obtain ⟨e3, e4, _⟩ := e2 w rfl
      obtain ⟨e4, e5, e6⟩ := e4 pg' rfl
      subst e4
      have ht : st'.files.take 1 = [root] := by
        cases hs : st'.files with
        | nil => rw [hs] at e6; cases e6
        | cons x xs =>
          rw [hs] at e6
          cases e6
          rfl
      obtain ⟨calls', c1, c2⟩ := ih2 { st' with files := st'.files.take 1 } e5 (by show (st'.files.take 1).head? = _; rw [ht]; rfl)
        (by show (st'.files.take 1).getLast? = _; rw [ht]; rfl)
      refine ⟨calls ++ calls', List.rel_append e1 c1, fun u' hu => ?_⟩
      rw [replay_then calls' hg] at hu
      exact c2 u' (by rw [← hu]; exact congrArg _ e3)
    · obtain ⟨calls', c1⟩ := (course_keeps hc2 ((course_keeps hc1 ⟨_, h1⟩).2 _ rfl)).1
      refine ⟨calls ++ calls', List.rel_append e1 c1, fun u' hu => ?_⟩
      obtain ⟨w', hw, _⟩ := replay_append_ok hu
      rw [hg] at hw
      cases hw
  | @within k path label n pg bytes l rest name b js rep hf hL hfs _ ih =>
    intro st h1 h2 h3
    obtain ⟨b', rfl, hb⟩ := (firstLine_read hf).1 _ rfl
    have hli : lineItems path (runes b') = _ := lineIs_items path hL
    obtain ⟨calls, e1, e2⟩ := ih { st with files := st.files ++ [splitDir path ++ name] } h1
      (by show (st.files ++ _).head? = _; rw [List.head?_append, h2]; rfl) (by simp)
    rw [hb, feedLines, hli, runLine_one]
    simp only [parseItem, hfs, lex, lexLoop_eq]
    generalize (feedLines (parseItem fs H k) (splitDir path ++ name) 1 (readLines b)
      ({ st with files := st.files ++ [splitDir path ++ name] } : PState σ)).andThen (parseItem fs H k .eofItem []) = r at e2
    obtain ⟨st', o⟩ := r
    refine ⟨calls, e1, fun u' hu => ?_⟩
    obtain ⟨e3, _, e4⟩ := e2 u' hu
    obtain ⟨x, e4, e5⟩ := e4 rep rfl
    simp only at e3 e4
    subst e4
    refine ⟨e3, by simp, ?_⟩
    rintro _ ⟨⟩
    exact ⟨_, rfl, within_isOf e5 path n⟩

/-! ### There is only one course -/

theorem newline_unique {l r l' r' : List UInt8} (h : l ++ r = l' ++ r') (h1 : (10 : UInt8) ∉ l) (h2 : r = [] ∨ r.head? = some 10)
    (h1' : (10 : UInt8) ∉ l') (h2' : r' = [] ∨ r'.head? = some 10) : l = l' ∧ r = r' := by
  induction l generalizing l' with
  | nil =>
    cases l' with
    | nil => exact ⟨rfl, h⟩
    | cons x l' =>
      rcases h2 with rfl | h2
      · cases h
      · rw [show r = x :: (l' ++ r') from h] at h2
        cases h2
        exact absurd (List.mem_cons_self ..) h1'
  | cons x l ih =>
    cases l' with
    | nil =>
      rcases h2' with rfl | h2'
      · cases h
      · rw [show r' = x :: (l ++ r) from h.symm] at h2'
        cases h2'
        exact absurd (List.mem_cons_self ..) h1
    | cons x' l' =>
      obtain ⟨rfl, h0⟩ := List.cons.inj h
      obtain ⟨rfl, rfl⟩ := ih h0 (fun hm => h1 (List.mem_cons_of_mem _ hm)) fun hm => h1' (List.mem_cons_of_mem _ hm)
      exact ⟨rfl, rfl⟩

theorem firstLine_split {bytes : List UInt8} {o : Option Str} {rest : List UInt8} (h : FirstLine bytes o rest) :
    ∃ l r, bytes = l ++ r ∧ (10 : UInt8) ∉ l ∧ (r = [] ∨ r.head? = some 10) ∧
      (o, rest) = if 4096 ≤ l.length then (none, r) else if r = [] then (some (runes l), []) else
        (some (runes (if l.getLast? = some 13 then l.dropLast else l)), r.tail) := by
  cases h with
  | @lf l r h1 h2 h3 => exact ⟨l, 10 :: rest, rfl, h1, Or.inr rfl, by rw [if_neg (by omega), if_neg (by simp), if_neg h3]; rfl⟩
  | @crlf l r h1 h2 =>
    refine ⟨l ++ [13], 10 :: rest, by simp, by simp [h1], Or.inr rfl, ?_⟩
    rw [if_neg (by rw [List.length_append, List.length_singleton]; omega), if_neg (by simp), if_pos (by simp), List.dropLast_concat]
    rfl
  | @last l h1 h2 h3 => exact ⟨bytes, [], by simp, h2, Or.inl rfl, by rw [if_neg (by omega), if_pos rfl]⟩
  | @long l r h1 h2 h3 => exact ⟨l, rest, rfl, h1, h3, by rw [if_pos h2]⟩

theorem firstLine_unique {bytes : List UInt8} {o o' : Option Str} {rest rest' : List UInt8} (h : FirstLine bytes o rest) (h' : FirstLine bytes o' rest') :
    o = o' ∧ rest = rest' := by
  obtain ⟨l, r, e, h1, h2, h3⟩ := firstLine_split h
  obtain ⟨l', r', e', h1', h2', h3'⟩ := firstLine_split h'
  obtain ⟨rfl, rfl⟩ := newline_unique (e.symm.trans e') h1 h2 h1' h2'
  exact Prod.mk.inj (h3.trans h3'.symm)

theorem ends_unique {pg : Page} {r r' : Except Str (List Meant)} (h : pg.Ends r) (h' : pg.Ends r') : r = r' := by
  cases h <;> cases h' <;> first | rfl | contradiction

theorem effect_unique {pg : Page} {L : Line} {ms ms' : List Meant} {out out' : Except Fault Page} (h : Effect pg L ms out) (h' : Effect pg L ms' out') :
    ms = ms' ∧ out = out' := by
  have hdate : ∀ {s : Str} {sep sep' : Char} {d d' : Date}, Separator sep → WrittenYMD sep s d → d.Real → Separator sep' → WrittenYMD sep' s d' → d'.Real → d = d' := by
    intro s sep sep' d d' a1 a2 a3 b1 b2 b3
    have e1 := ((C10_dates_accepted s).1 d).2 ⟨sep, a1, a2, a3⟩
    have e2 := ((C10_dates_accepted s).1 d').2 ⟨sep', b1, b2, b3⟩
    exact Except.ok.inj (e1.symm.trans e2)
  have hmonth : ∀ {s : Str} {d d' : Date}, WrittenYM '-' s d → d.Real → WrittenYM '-' s d' → d'.Real → d = d' := by
    intro s d d' a2 a3 b2 b3
    have e1 := (C60_period_read_partial s).1 d a2 a3
    have e2 := (C60_period_read_partial s).1 d' b2 b3
    exact congrArg Period.startDate (e1.symm.trans e2)
  have hshort : ∀ {s : Str} {sep : Char} {d : Date}, Separator sep → WrittenYMD sep s d → d.Real → s.length < 5 → False := by
    intro s sep d a1 a2 a3 a4
    have e1 := ((C10_dates_accepted s).1 d).2 ⟨sep, a1, a2, a3⟩
    have e2 := (C10_dates_accepted s).2.2 a4
    rw [e1] at e2
    cases e2
  have hends : ∀ {ms ms' : List Meant}, pg.Ends (.ok ms) → pg.Ends (.ok ms') → ms = ms' := fun a b => Except.ok.inj (ends_unique a b)
  have hbad : ∀ {ms : List Meant} {r : Str}, pg.Ends (.ok ms) → pg.Ends (.error r) → False := fun a b => by cases ends_unique a b
  cases h with
  | passed => cases h' with
    | passed => exact ⟨rfl, rfl⟩
    | wrong a => exact a.elim
  | unknown => cases h' with
    | unknown => exact ⟨rfl, rfl⟩
    | wrong a => exact a.elim
  | wrong a hr => cases h' with
    | wrong _ hr' =>
      cases ends_unique hr hr'
      exact ⟨rfl, rfl⟩
    | blank hr' => exact (hbad hr' hr).elim
    | header hr' => exact (hbad hr' hr).elim
    | badDate hr' => exact (hbad hr' hr).elim
    | shortDate hr' => exact (hbad hr' hr).elim
    | budget hr' => exact (hbad hr' hr).elim
    | badPeriod hr' => exact (hbad hr' hr).elim
    | _ => exact a.elim
  | blank hr => cases h' with
    | wrong _ hr' => exact (hbad hr hr').elim
    | blank hr' => exact ⟨hends hr hr', rfl⟩
  | header hr d1 d2 d3 => cases h' with
    | wrong _ hr' => exact (hbad hr hr').elim
    | header hr' e1 e2 e3 =>
      obtain rfl := hdate d1 d2 d3 e1 e2 e3
      exact ⟨hends hr hr', rfl⟩
    | badDate hr' e1 => exact absurd ⟨_, _, d1, d2, d3⟩ e1
    | shortDate hr' e1 => exact (hshort d1 d2 d3 e1).elim
  | badDate hr d1 d2 => cases h' with
    | wrong _ hr' => exact (hbad hr hr').elim
    | header hr' e1 e2 e3 => exact absurd ⟨_, _, e1, e2, e3⟩ d1
    | badDate hr' => exact ⟨hends hr hr', rfl⟩
    | shortDate hr' e1 => omega
  | shortDate hr d1 => cases h' with
    | wrong _ hr' => exact (hbad hr hr').elim
    | header hr' e1 e2 e3 => exact (hshort e1 e2 e3 d1).elim
    | badDate hr' _ e1 => omega
    | shortDate hr' => exact ⟨hends hr hr', rfl⟩
  | budget hr d1 d2 => cases h' with
    | wrong _ hr' => exact (hbad hr hr').elim
    | budget hr' e1 e2 =>
      obtain rfl := hmonth d1 d2 e1 e2
      exact ⟨hends hr hr', rfl⟩
    | badPeriod hr' e1 => exact absurd d1 (e1 _ d2)
  | badPeriod hr d1 => cases h' with
    | wrong _ hr' => exact (hbad hr hr').elim
    | budget hr' e1 e2 => exact absurd e1 (d1 _ e2)
    | badPeriod hr' => exact ⟨hends hr hr', rfl⟩
  | entryNote =>
    generalize hpg : Page.entry _ [] = pg at h'
    cases h' with
    | wrong a => exact a.elim
    | entryNote =>
      obtain ⟨rfl, e⟩ := Page.entry.inj hpg
      exact ⟨rfl, rfl⟩
    | postingNote => simp at hpg
    | budgetNote => cases hpg
    | strayNote a => rcases a with ⟨b, rfl⟩ | ⟨m, rfl⟩ <;> cases hpg
  | postingNote =>
    generalize hpg : Page.entry _ (_ ++ [_]) = pg at h'
    cases h' with
    | wrong a => exact a.elim
    | entryNote => simp at hpg
    | postingNote =>
      obtain ⟨rfl, e⟩ := Page.entry.inj hpg
      obtain ⟨rfl, e'⟩ := List.append_inj' e rfl
      obtain rfl := List.singleton_inj.1 e'
      exact ⟨rfl, rfl⟩
    | budgetNote => cases hpg
    | strayNote a => rcases a with ⟨b, rfl⟩ | ⟨m, rfl⟩ <;> cases hpg
  | budgetNote =>
    generalize hpg : Page.budget _ (_ ++ [_]) = pg at h'
    cases h' with
    | wrong a => exact a.elim
    | entryNote => simp at hpg
    | postingNote => cases hpg
    | budgetNote =>
      obtain ⟨rfl, e⟩ := Page.budget.inj hpg
      obtain ⟨rfl, e'⟩ := List.append_inj' e rfl
      obtain rfl := List.singleton_inj.1 e'
      exact ⟨rfl, rfl⟩
    | strayNote a => rcases a with ⟨b, rfl⟩ | ⟨m, rfl⟩ <;> simp at hpg
  | strayNote a => cases h' with
    | wrong a => exact a.elim
    | entryNote => rcases a with ⟨b, a⟩ | ⟨m, a⟩ <;> cases a
    | postingNote => rcases a with ⟨b, a⟩ | ⟨m, a⟩ <;> cases a
    | budgetNote => rcases a with ⟨b, a⟩ | ⟨m, a⟩ <;> simp at a
    | strayNote _ => exact ⟨rfl, rfl⟩
  | posting hc => cases h' with
    | wrong a => exact a.elim
    | posting => exact ⟨rfl, rfl⟩
    | firstPosting => exact absurd ⟨_, rfl⟩ hc
    | strayPosting => exact absurd ⟨_, rfl⟩ hc
  | amount hc hq => cases h' with
    | wrong a => exact a.elim
    | amount _ hq' =>
      obtain rfl := Except.ok.inj (((number_iff _ _).2 hq).symm.trans ((number_iff _ _).2 hq'))
      exact ⟨rfl, rfl⟩
    | badAmount _ _ hn => exact absurd hq (hn _)
    | noAmount =>
      have := (number_iff _ _).2 hq
      cases this
    | firstPosting => exact absurd ⟨_, rfl⟩ hc
    | strayPosting => exact absurd ⟨_, rfl⟩ hc
  | badAmount hc hne hn => cases h' with
    | wrong a => exact a.elim
    | amount _ hq' => exact absurd hq' (hn _)
    | badAmount => exact ⟨rfl, rfl⟩
    | noAmount => exact absurd rfl hne
    | firstPosting => exact absurd ⟨_, rfl⟩ hc
    | strayPosting => exact absurd ⟨_, rfl⟩ hc
  | noAmount hc => cases h' with
    | wrong a => exact a.elim
    | amount _ hq' =>
      have := (number_iff _ _).2 hq'
      cases this
    | badAmount _ hne => exact absurd rfl hne
    | noAmount => exact ⟨rfl, rfl⟩
    | firstPosting => exact absurd ⟨_, rfl⟩ hc
    | strayPosting => exact absurd ⟨_, rfl⟩ hc
  | firstPosting => cases h' with
    | wrong a => exact a.elim
    | firstPosting => exact ⟨rfl, rfl⟩
    | posting hc => exact absurd ⟨_, rfl⟩ hc
    | amount hc => exact absurd ⟨_, rfl⟩ hc
    | badAmount hc => exact absurd ⟨_, rfl⟩ hc
    | noAmount hc => exact absurd ⟨_, rfl⟩ hc
  | strayPosting => cases h' with
    | wrong a => exact a.elim
    | strayPosting => exact ⟨rfl, rfl⟩
    | posting hc => exact absurd ⟨_, rfl⟩ hc
    | amount hc => exact absurd ⟨_, rfl⟩ hc
    | badAmount hc => exact absurd ⟨_, rfl⟩ hc
    | noAmount hc => exact absurd ⟨_, rfl⟩ hc

theorem firstLine_nil {o : Option Str} {rest : List UInt8} (h : FirstLine [] o rest) : False := by
  generalize e : ([] : List UInt8) = bytes at h
  cases h with
  | lf => simp at e
  | crlf => simp at e
  | last h => exact h e.symm
  | long h1 h2 =>
    have := congrArg List.length e
    rw [List.length_append, List.length_nil] at this
    omega

theorem course_unique [Unicode] {fs : FileSystem} {lib : Err → Str} {root : Str} {k : Nat} {path label : Str} {n : Nat} {pg : Page} {bytes : List UInt8}
    {js js' : List (Meant × Str)} {out out' : Except Report Page} (h : Course fs lib root k path label n pg bytes js out)
    (h' : Course fs lib root k path label n pg bytes js' out') : js = js' ∧ out = out' := by
  have noEffect : ∀ {pg : Page} {name : Str} {ms : List Meant} {out : Except Fault Page}, Effect pg (.inclusion name) ms out → False := by
    intro pg name ms out h
    cases h with
    | wrong a => exact a
  have same : ∀ {bytes rest rest' : List UInt8} {l l' : Str} {L L' : Line}, FirstLine bytes (some l) rest → LineIs l L → FirstLine bytes (some l') rest' →
      LineIs l' L' → L = L' ∧ rest = rest' := by
    intro bytes rest rest' l l' L L' a1 a2 b1 b2
    obtain ⟨e1, e2⟩ := firstLine_unique a1 b1
    cases e1
    exact ⟨lineIs_unique a2 b2, e2⟩
  have notLong : ∀ {bytes rest rest' : List UInt8} {l : Str}, FirstLine bytes (some l) rest → FirstLine bytes none rest' → False := by
    intro bytes rest rest' l a b
    cases (firstLine_unique a b).1
  induction h generalizing js' out' with
  | done hr => cases h' with
    | done hr' =>
      cases ends_unique hr hr'
      exact ⟨rfl, rfl⟩
    | wrong hr' => cases ends_unique hr hr'
    | long hf => exact (firstLine_nil hf).elim
    | line hf => exact (firstLine_nil hf).elim
    | fault hf => exact (firstLine_nil hf).elim
    | missing hf => exact (firstLine_nil hf).elim
    | includes hf => exact (firstLine_nil hf).elim
    | within hf => exact (firstLine_nil hf).elim
  | wrong hr => cases h' with
    | done hr' => cases ends_unique hr hr'
    | wrong hr' =>
      cases ends_unique hr hr'
      exact ⟨rfl, rfl⟩
    | long hf => exact (firstLine_nil hf).elim
    | line hf => exact (firstLine_nil hf).elim
    | fault hf => exact (firstLine_nil hf).elim
    | missing hf => exact (firstLine_nil hf).elim
    | includes hf => exact (firstLine_nil hf).elim
    | within hf => exact (firstLine_nil hf).elim
  | long hf => cases h' with
    | done hr' => exact (firstLine_nil hf).elim
    | wrong hr' => exact (firstLine_nil hf).elim
    | long _ => exact ⟨rfl, rfl⟩
    | line hf' => exact (notLong hf' hf).elim
    | fault hf' => exact (notLong hf' hf).elim
    | missing hf' => exact (notLong hf' hf).elim
    | includes hf' => exact (notLong hf' hf).elim
    | within hf' => exact (notLong hf' hf).elim
  | line hf hL he _ ih => cases h' with
    | done => exact (firstLine_nil hf).elim
    | wrong => exact (firstLine_nil hf).elim
    | long hf' => exact (notLong hf hf').elim
    | line hf' hL' he' hc' =>
      obtain ⟨rfl, rfl⟩ := same hf hL hf' hL'
      obtain ⟨rfl, e⟩ := effect_unique he he'
      cases e
      obtain ⟨rfl, rfl⟩ := ih hc'
      exact ⟨rfl, rfl⟩
    | fault hf' hL' he' =>
      obtain ⟨rfl, rfl⟩ := same hf hL hf' hL'
      cases (effect_unique he he').2
    | missing hf' hL' =>
      obtain ⟨rfl, rfl⟩ := same hf hL hf' hL'
      exact (noEffect he).elim
    | includes hf' hL' =>
      obtain ⟨rfl, rfl⟩ := same hf hL hf' hL'
      exact (noEffect he).elim
    | within hf' hL' =>
      obtain ⟨rfl, rfl⟩ := same hf hL hf' hL'
      exact (noEffect he).elim
  | fault hf hL he => cases h' with
    | done => exact (firstLine_nil hf).elim
    | wrong => exact (firstLine_nil hf).elim
    | long hf' => exact (notLong hf hf').elim
    | line hf' hL' he' hc' =>
      obtain ⟨rfl, rfl⟩ := same hf hL hf' hL'
      cases (effect_unique he he').2
    | fault hf' hL' he' =>
      obtain ⟨rfl, rfl⟩ := same hf hL hf' hL'
      obtain ⟨rfl, e⟩ := effect_unique he he'
      cases e
      exact ⟨rfl, rfl⟩
    | missing hf' hL' =>
      obtain ⟨rfl, rfl⟩ := same hf hL hf' hL'
      exact (noEffect he).elim
    | includes hf' hL' =>
      obtain ⟨rfl, rfl⟩ := same hf hL hf' hL'
      exact (noEffect he).elim
    | within hf' hL' =>
      obtain ⟨rfl, rfl⟩ := same hf hL hf' hL'
      exact (noEffect he).elim
  | missing hf hL hm => cases h' with
    | done => exact (firstLine_nil hf).elim
    | wrong => exact (firstLine_nil hf).elim
    | long hf' => exact (notLong hf hf').elim
    | line hf' hL' he' =>
      obtain ⟨rfl, rfl⟩ := same hf hL hf' hL'
      exact (noEffect he').elim
    | fault hf' hL' he' =>
      obtain ⟨rfl, rfl⟩ := same hf hL hf' hL'
      exact (noEffect he').elim
    | missing hf' hL' =>
      obtain ⟨e, rfl⟩ := same hf hL hf' hL'
      cases e
      exact ⟨rfl, rfl⟩
    | includes hf' hL' hb =>
      obtain ⟨e, rfl⟩ := same hf hL hf' hL'
      cases e
      rcases hm with hm | hm
      · rw [hm] at hb; cases hb
      · cases hm
    | within hf' hL' hb =>
      obtain ⟨e, rfl⟩ := same hf hL hf' hL'
      cases e
      rcases hm with hm | hm
      · rw [hm] at hb; cases hb
      · cases hm
  | includes hf hL hb _ _ ih1 ih2 => cases h' with
    | done => exact (firstLine_nil hf).elim
    | wrong => exact (firstLine_nil hf).elim
    | long hf' => exact (notLong hf hf').elim
    | line hf' hL' he' =>
      obtain ⟨rfl, rfl⟩ := same hf hL hf' hL'
      exact (noEffect he').elim
    | fault hf' hL' he' =>
      obtain ⟨rfl, rfl⟩ := same hf hL hf' hL'
      exact (noEffect he').elim
    | missing hf' hL' hm =>
      obtain ⟨e, rfl⟩ := same hf hL hf' hL'
      cases e
      rcases hm with hm | hm
      · rw [hm] at hb; cases hb
      · cases hm
    | includes hf' hL' hb' hc1 hc2 =>
      obtain ⟨e, rfl⟩ := same hf hL hf' hL'
      cases e
      cases hb.symm.trans hb'
      obtain ⟨rfl, e⟩ := ih1 hc1
      cases e
      obtain ⟨rfl, rfl⟩ := ih2 hc2
      exact ⟨rfl, rfl⟩
    | within hf' hL' hb' hc1 =>
      obtain ⟨e, rfl⟩ := same hf hL hf' hL'
      cases e
      cases hb.symm.trans hb'
      cases (ih1 hc1).2
  | within hf hL hb _ ih => cases h' with
    | done => exact (firstLine_nil hf).elim
    | wrong => exact (firstLine_nil hf).elim
    | long hf' => exact (notLong hf hf').elim
    | line hf' hL' he' =>
      obtain ⟨rfl, rfl⟩ := same hf hL hf' hL'
      exact (noEffect he').elim
    | fault hf' hL' he' =>
      obtain ⟨rfl, rfl⟩ := same hf hL hf' hL'
      exact (noEffect he').elim
    | missing hf' hL' hm =>
      obtain ⟨e, rfl⟩ := same hf hL hf' hL'
      cases e
      rcases hm with hm | hm
      · rw [hm] at hb; cases hb
      · cases hm
    | includes hf' hL' hb' hc1 hc2 =>
      obtain ⟨e, rfl⟩ := same hf hL hf' hL'
      cases e
      cases hb.symm.trans hb'
      cases (ih hc1).2
    | within hf' hL' hb' hc1 =>
      obtain ⟨e, rfl⟩ := same hf hL hf' hL'
      cases e
      cases hb.symm.trans hb'
      obtain ⟨rfl, e⟩ := ih hc1
      cases e
      exact ⟨rfl, rfl⟩

end Gledger
