/-
C136: balances can be carried forward: an opening transaction with the sums of the accounts stands for all that came before.
-/
import Verif.Props.RenamedTexts
import Mathlib.Data.List.Dedup

namespace Gledger

/-- One posting for each account: the sum of what was posted to it (not to those below it). -/
def carried (c : Str) (ps : List Posting) : List Posting :=
  (ps.map Posting.accountPath).dedup.map fun a =>
    { linked := true, accountPath := a, amount := some ⟨c, valueOf (ps.filter fun p => p.accountPath = a)⟩ }

section
variable {ps ps' : List Posting} {c : Str}

theorem grouped_sum (v : Posting → I64) {ks : List Str} (hn : ks.Nodup) : ∀ ps : List Posting, (∀ p ∈ ps, p.accountPath ∈ ks) →
    (ks.map fun a => ((ps.filter fun p => p.accountPath = a).map v).sum).sum = (ps.map v).sum := by
  intro ps
  induction ps with
  | nil => intro _; simp
  | cons p ps ih =>
    intro h
    have e : ∀ a, (((p :: ps).filter fun p => p.accountPath = a).map v).sum =
        (if a = p.accountPath then v p else 0) + ((ps.filter fun p => p.accountPath = a).map v).sum := by
      intro a
      rw [List.filter_cons]
      by_cases ha : p.accountPath = a
      · simp [ha]
      · simp [ha, Ne.symm ha]
    simp only [e]
    rw [List.sum_map_add, ih (fun q hq => h q (List.mem_cons_of_mem _ hq)), sum_single_key hn (h p (by simp)), List.map_cons, List.sum_cons]

theorem sum_filter_if {α : Type} (P : α → Prop) [DecidablePred P] (v : α → I64) (l : List α) :
    ((l.filter fun x => P x).map v).sum = (l.map fun x => if P x then v x else 0).sum := by
  induction l with
  | nil => rfl
  | cons x l ih =>
    rw [List.filter_cons]
    by_cases h : P x
    · simp [h, ih]
    · simp [h, ih]

/-- Nothing is lost: every account sums to what it did. -/
theorem carried_value (c : Str) (ps : List Posting) (cs : List Str) : valueOf (below cs (carried c ps)) = valueOf (below cs ps) := by
  unfold below valueOf carried
  rw [sum_filter_if (fun p : Posting => cs <+: p.components), List.map_map, sum_filter_if (fun p : Posting => cs <+: p.components)]
  rw [← grouped_sum (fun p => if cs <+: p.components then p.value else 0) (List.nodup_dedup (ps.map Posting.accountPath)) ps fun p hp =>
    List.mem_dedup.2 (List.mem_map_of_mem hp)]
  congr 1
  refine List.map_congr_left fun a _ => ?_
  simp only [Function.comp]
  have e : ∀ p ∈ ps.filter (fun p => p.accountPath = a), (if cs <+: p.components then p.value else 0) = if cs <+: split ':' a then p.value else 0 := by
    intro p hp
    have := of_decide_eq_true (List.mem_filter.1 hp).2
    unfold Posting.components
    rw [this]
  rw [List.map_congr_left e]
  by_cases h : cs <+: split ':' a
  · simp only [Posting.components, h, if_true]
    rfl
  · simp [Posting.components, h]

theorem carried_accounts (c : Str) (ps : List Posting) (cs : List Str) : (∃ p ∈ carried c ps, cs <+: p.components) ↔ ∃ p ∈ ps, cs <+: p.components := by
  unfold carried
  constructor
  · rintro ⟨p, hp, h⟩
    obtain ⟨a, ha, rfl⟩ := List.mem_map.1 hp
    obtain ⟨q, hq, rfl⟩ := List.mem_map.1 (List.mem_dedup.1 ha)
    exact ⟨q, hq, h⟩
  · rintro ⟨p, hp, h⟩
    exact ⟨_, List.mem_map_of_mem (List.mem_dedup.2 (List.mem_map_of_mem hp)), h⟩

theorem carried_one (c : Str) (ps : List Posting) : ∀ p ∈ carried c ps, ∃ a, p.amount = some a ∧ a.commodity = c := by
  intro p hp
  obtain ⟨a, _, rfl⟩ := List.mem_map.1 hp
  exact ⟨_, rfl, rfl⟩

/-- Reports, in any form, of postings in one commodity are the same if the same accounts occur and have the same sums. -/
theorem C136_reports {showZero flatten collapse : Bool} {text text' : Str} (hc : ∀ p ∈ ps ++ ps', ∃ a, p.amount = some a ∧ a.commodity = c)
    (ha : ∀ cs, (∃ p ∈ ps, cs <+: p.components) ↔ ∃ p ∈ ps', cs <+: p.components)
    (hv : ∀ cs, valueOf (below cs ps) = valueOf (below cs ps'))
    (R : BalanceReport showZero flatten collapse ps text) (R' : BalanceReport showZero flatten collapse ps' text') : text = text' := by
  have hn : ∀ cs, below cs ps = [] ↔ below cs ps' = [] := by
    intro cs
    unfold below
    rw [List.filter_eq_nil_iff, List.filter_eq_nil_iff]
    have := not_congr (ha cs)
    push Not at this
    simpa using this
  have ht : ∀ cs, tally (below cs ps) = tally (below cs ps') := by
    intro cs
    unfold tally
    have : firstCommodity (below cs ps) = firstCommodity (below cs ps') := by
      by_cases h : below cs ps = []
      · rw [h, (hn cs).1 h]
      · rw [first_one (ps := below cs ps) (c := c) (fun p hp => hc p (List.mem_append_left _ (List.mem_of_mem_filter hp))) h,
          first_one (ps := below cs ps') (c := c) (fun p hp => hc p (List.mem_append_right _ (List.mem_of_mem_filter hp))) fun h' => h ((hn cs).2 h')]
    rw [this]
    exact congrArg _ (hv cs)
  refine balanceReport_same (fun cs => ?_) (fun cs _ _ => ht cs) ?_ R R'
  · unfold Shown
    rw [ha cs]
    simp only [hv]
  · have := ht []
    rw [below_nil, below_nil] at this
    rw [this]

end

section
variable [Unicode] {m m' : Machine} {o o' : Options} {args args' : List Str} {bytes bytes' : List UInt8} {js js' : List (Meant × Str)}
  {filters filters' : List Filter} {admits admits' : Date → Bool} {path path' : Str}

/-- Two runs of `balance` in the same form, also with `--show-zero`, on whatever journals, with whatever arguments and flags, print the same if what is asked for is
in one commodity and the same accounts occur in both, with the same sums. -/
theorem C136_runs (g : Setting m o args bytes filters admits path) {pg pg' : Page} (r : Reading m.fs m.lib m.maxOpen path bytes js (.ok pg))
    (g' : Setting m' o' args' bytes' filters' admits' path') (r' : Reading m'.fs m'.lib m'.maxOpen path' bytes' js' (.ok pg'))
    (h0 : o.showZero = o'.showZero) (h1 : o.flatten = o'.flatten) (h2 : o.collapse = o'.collapse) {c : Str}
    (hc : ∀ p ∈ askedPostings filters admits (meanings js) ++ askedPostings filters' admits' (meanings js'), ∃ a, p.amount = some a ∧ a.commodity = c)
    (ha : ∀ cs, (∃ p ∈ askedPostings filters admits (meanings js), cs <+: p.components) ↔
      ∃ p ∈ askedPostings filters' admits' (meanings js'), cs <+: p.components)
    (hv : ∀ cs, valueOf (below cs (askedPostings filters admits (meanings js))) = valueOf (below cs (askedPostings filters' admits' (meanings js')))) :
    m.run o .balance args = m'.run o' .balance args' := by
  have long : ∀ {l : List Posting}, (∀ p ∈ l, ∃ a, p.amount = some a ∧ a.commodity = c) → ¬ ∃ p ∈ l, p.amount = none := by
    rintro l h ⟨p, hp, hn⟩
    obtain ⟨a, ha, _⟩ := h p hp
    rw [hn] at ha
    cases ha
  obtain ⟨d1, d2, _⟩ := C99_parsed r
  obtain ⟨qss, text, q1, q2, q3⟩ := Heard.balance (js := js) ⟨g, d1⟩ (d2 pg rfl) (long fun p hp => hc p (List.mem_append_left _ hp))
  obtain ⟨d1', d2', _⟩ := C99_parsed r'
  obtain ⟨qss', text', q1', q2', q3'⟩ := Heard.balance (js := js') ⟨g', d1'⟩ (d2' pg' rfl) (long fun p hp => hc p (List.mem_append_right _ hp))
  have p1 := taken_perm q1
  have p2 := taken_perm q1'
  have e1 : ∀ p ∈ qss.flatten, ∃ a, p.amount = some a ∧ a.commodity = c := fun p hp => hc p (List.mem_append_left _ (p1.subset hp))
  have e2 : ∀ p ∈ qss'.flatten, ∃ a, p.amount = some a ∧ a.commodity = c := fun p hp => hc p (List.mem_append_right _ (p2.subset hp))
  have hm : ∀ {l : List Posting}, (∀ p ∈ l, ∃ a, p.amount = some a ∧ a.commodity = c) → balanceMixes [] l = [] := by
    intro l h
    refine balanceMixes_one (c := c) l [] fun p hp a ha => ?_
    obtain ⟨b, hb, hc⟩ := h p (by simpa using hp)
    rw [hb] at ha
    cases ha
    exact hc
  rw [← h0, ← h1, ← h2] at q2'
  rw [q3, q3', hm e1, hm e2]
  refine congrArg (fun t => (⟨[] ++ t, .exit 0⟩ : Run)) (C136_reports (c := c) ?_ ?_ ?_ q2 q2')
  · intro p hp
    rcases List.mem_append.1 hp with hp | hp
    · exact e1 p hp
    · exact e2 p hp
  · intro cs
    have a1 : ∀ {l l' : List Posting}, l.Perm l' → ((∃ p ∈ l, cs <+: p.components) ↔ ∃ p ∈ l', cs <+: p.components) := fun h =>
      ⟨fun ⟨p, hp, k⟩ => ⟨p, h.subset hp, k⟩, fun ⟨p, hp, k⟩ => ⟨p, h.symm.subset hp, k⟩⟩
    exact (a1 p1).trans ((ha cs).trans (a1 p2).symm)
  · intro cs
    rw [below_perm p1 cs, below_perm p2 cs]
    exact hv cs

/-- Balances can be carried forward: if of what is asked for of one journal, in one commodity, a part is replaced, in another journal, by one posting for each account
with its sum, then `balance` prints the same of both, in whatever form. -/
theorem C136_replaced (g : Setting m o args bytes filters admits path) {pg pg' : Page} (r : Reading m.fs m.lib m.maxOpen path bytes js (.ok pg))
    (g' : Setting m' o' args' bytes' filters' admits' path') (r' : Reading m'.fs m'.lib m'.maxOpen path' bytes' js' (.ok pg'))
    (h0 : o.showZero = o'.showZero) (h1 : o.flatten = o'.flatten) (h2 : o.collapse = o'.collapse) {c : Str} {old rest : List Posting}
    (hc : ∀ p ∈ old ++ rest, ∃ a, p.amount = some a ∧ a.commodity = c)
    (hp : (askedPostings filters admits (meanings js)).Perm (old ++ rest))
    (hp' : (askedPostings filters' admits' (meanings js')).Perm (carried c old ++ rest)) :
    m.run o .balance args = m'.run o' .balance args' := by
  have a1 : ∀ {l l' : List Posting} cs, l.Perm l' → ((∃ p ∈ l, cs <+: p.components) ↔ ∃ p ∈ l', cs <+: p.components) := fun _ h =>
    ⟨fun ⟨p, hp, k⟩ => ⟨p, h.subset hp, k⟩, fun ⟨p, hp, k⟩ => ⟨p, h.symm.subset hp, k⟩⟩
  refine C136_runs g r g' r' h0 h1 h2 (c := c) ?_ (fun cs => ?_) fun cs => ?_
  · intro p h
    rcases List.mem_append.1 h with h | h
    · exact hc p (hp.subset h)
    · rcases List.mem_append.1 (hp'.subset h) with h | h
      · exact carried_one c old p h
      · exact hc p (List.mem_append_right _ h)
  · refine (a1 cs hp).trans (Iff.trans ?_ (a1 cs hp').symm)
    simp only [List.mem_append, or_and_right, exists_or]
    rw [carried_accounts]
  · rw [below_perm hp, below_perm hp', below_append, below_append, valueOf_append, valueOf_append, carried_value]

end

/-! ### Journals written out -/

section
variable [Unicode]

theorem tidy_means {t : Transaction} (h : t.Tidy) : (Paragraph.entry t.written).Means (.transaction t.plain) := by
  obtain ⟨ok, cl, e⟩ := transaction_ok h
  obtain ⟨⟨_, _, _, a1, a2, a3, a4, a5, a6, a7⟩, o2, o3⟩ := ok
  refine ⟨⟨⟨'-', by decide, format_written h.1 h.2.1 h.2.2.1⟩, h.1, a1, a2, a3, a4, a5, a6, a7⟩, o2, ?_, cl, e.symm⟩
  intro p hp
  obtain ⟨q, hq, rfl⟩ := List.mem_map.1 hp
  obtain ⟨b1, b2, b3, b4⟩ := o3 _ hp
  refine ⟨b1, b2, ?_, b4⟩
  intro w hw
  obtain ⟨_, _, _, a, ha, hcm, hr⟩ := h.2.2.2.2.2.2.2.2.2.1 q hq
  rw [Option.mem_def] at ha
  have hw' : w = a.written := by
    simp only [Posting.written, ha, Option.map_some, Option.mem_def, Option.some.injEq] at hw
    exact hw.symm
  subst hw'
  obtain ⟨c1, c2, c3, c4, c5, c6, c7, _, c8⟩ := b3 _ hw
  obtain ⟨s, ⟨n, n1, ⟨f, f1, f2⟩, n3, n4, n5, n6, n7⟩, s1, _⟩ := C07_display_exact a hr
  refine ⟨⟨c1, c2, c3, c4, c5, c6, c7, c8⟩, n, ?_, n1, ?_, ?_, ?_⟩
  · rw [← n6]; exact s1
  · intro f' hf'
    rw [f1] at hf'
    cases hf'
    exact f2
  · rw [n7]
    unfold Int64Range
    omega
  · exact n7.symm

omit [Unicode] in
theorem fill_sum (c : Str) (v : I64) (ps : List Posting) :
    ((ps.map fun p => if p.amount = none then { p with amount := some ⟨c, v⟩ } else p).map Posting.value).sum =
      (ps.map Posting.value).sum + (ps.filter fun p => p.amount = none).length • v := by
  induction ps with
  | nil => simp
  | cons p ps ih =>
    rw [List.map_cons, List.map_cons, List.sum_cons, ih, List.map_cons, List.sum_cons, List.filter_cons]
    by_cases h : p.amount = none
    · simp only [h, if_true, decide_true, List.length_cons, succ_nsmul]
      simp only [Posting.value, h]
      ring
    · simp only [h, if_false, decide_false, Bool.false_eq_true]
      ring

/-- What a paragraph means is in balance, if no amount is missing, and has the names written. -/
theorem means_entry {p : Paragraph} {t : Transaction} (h : p.Means (.transaction t)) :
    (∀ q ∈ t.postings, AccountText q.accountPath) ∧ ((∀ q ∈ t.postings, q.amount ≠ none) → t.Balanced) := by
  cases p with
  | budget b => exact h.elim
  | entry e =>
    obtain ⟨_, _, h3, ⟨_, h4, h5⟩, rfl⟩ := h
    have hb : ∀ q ∈ e.body, AccountText q.accountPath := by
      intro q hq
      obtain ⟨w, hw, rfl⟩ := List.mem_map.1 hq
      exact (h3 w hw).2.1
    unfold Transaction.Balanced Transaction.complete inferred
    dsimp only
    split
    · rename_i hs
      exact ⟨hb, fun _ => hs⟩
    · rename_i hs
      constructor
      · intro q hq
        obtain ⟨r, hr, rfl⟩ := List.mem_map.1 hq
        split
        · exact hb r hr
        · exact hb r hr
      · intro _
        rw [fill_sum]
        have : (e.body.filter fun p => p.amount = none).length = 1 := by
          by_contra hne
          refine hs (h5 fun p hp hn => ?_)
          have h0 : (e.body.filter fun p => p.amount = none) = [] := List.length_eq_zero_iff.1 (by omega)
          have := List.filter_eq_nil_iff.1 h0 p hp
          simp [hn] at this
        rw [this, one_nsmul]
        ring

/-- The transaction that opens the books: on this day, the sums of the accounts. -/
def openingOf (day : Date) (payee c : Str) (ps : List Posting) : Transaction := { date := day, payee := payee, postings := carried c ps }

variable {m m' : Machine} {o o' : Options} {args args' : List Str} {admits : Date → Bool} {path path' : Str}

/-- A well-formed journal file, and another in which the first paragraphs are replaced by one transaction with the sums of the accounts, as `print` would print it:
`balance` without arguments, about the same days, in the same form, prints the same. (In one commodity; no amount may be missing, no sum so large that it
is not displayed exactly.) -/
theorem C136_texts {old new : List (Paragraph × Nat)} {ms ks : List Meant} (h : List.Forall₂ (fun p x => p.1.Means x) old ms)
    (h' : List.Forall₂ (fun p x => p.1.Means x) new ks) {day : Date} {payee c : Str} (hday : day.Real ∧ 0 ≤ day.year ∧ day.year ≤ 9999)
    (hpay : FieldText payee ∧ StartsInk payee ∧ payee.head? ≠ some '!' ∧ payee.head? ≠ some '*') (hcom : CommodityText c)
    (hc : ∀ p ∈ askedPostings [] admits ms ++ askedPostings [] admits ks, ∃ a, p.amount = some a ∧ a.commodity = c)
    (hn : askedPostings [] admits ms ≠ []) (hadm : admits day = true)
    (hr : ∀ a, (valueOf ((askedPostings [] admits ms).filter fun p => p.accountPath = a)).toInt.natAbs < 100 * 2 ^ 46)
    (hfit : Fits (journalLines (old ++ new)))
    (hfit' : Fits (journalLines ((.entry (openingOf day payee c (askedPostings [] admits ms)).written, 0) :: new)))
    (g : Setting m o args (journalText (old ++ new)) [] admits path)
    (g' : Setting m' o' args' (journalText ((.entry (openingOf day payee c (askedPostings [] admits ms)).written, 0) :: new)) [] admits path')
    (h0 : o.showZero = o'.showZero) (h1 : o.flatten = o'.flatten) (h2 : o.collapse = o'.collapse) :
    m.run o .balance args = m'.run o' .balance args' := by
  have sel : ∀ t, selection [] t = t.postings := fun t => by
    unfold selection
    exact if_pos (Or.inl rfl)
  have hmem : ∀ p ∈ askedPostings [] admits ms, ∃ t ∈ transactionsOf ms, p ∈ t.postings ∧ ∀ q ∈ t.postings, q ∈ askedPostings [] admits ms := by
    intro p hp
    obtain ⟨t, ht, hpt⟩ := List.mem_flatMap.1 hp
    rw [sel] at hpt
    exact ⟨t, (List.mem_filter.1 ht).1, hpt, fun q hq => List.mem_flatMap.2 ⟨t, ht, by rw [sel]; exact hq⟩⟩
  have hsrc : ∀ t ∈ transactionsOf ms, ∃ p : Paragraph, p.Means (.transaction t) := by
    intro t ht
    unfold transactionsOf at ht
    obtain ⟨x, hx, hxt⟩ := List.mem_filterMap.1 ht
    obtain ⟨p, _, hp⟩ := forall₂_mem_left h.flip hx
    cases x with
    | budget mo ps => cases hxt
    | transaction t' => cases hxt; exact ⟨p.1, hp⟩
  have hzero : valueOf (askedPostings [] admits ms) = 0 := by
    unfold valueOf askedPostings
    rw [List.map_flatMap]
    have : ∀ ts : List Transaction, (∀ t ∈ ts, t ∈ asked admits ms) → (ts.flatMap fun t => (selection [] t).map Posting.value).sum = 0 := by
      intro ts
      induction ts with
      | nil => intro _; rfl
      | cons t ts ih =>
        intro hts
        rw [List.flatMap_cons, List.sum_append, ih fun t ht => hts t (List.mem_cons_of_mem _ ht), sel, add_zero]
        have ht := hts t (by simp)
        obtain ⟨p, hp⟩ := hsrc t (List.mem_filter.1 ht).1
        refine (means_entry hp).2 fun q hq hqn => ?_
        obtain ⟨a, ha, _⟩ := hc q (List.mem_append_left _ (List.mem_flatMap.2 ⟨t, ht, by rw [sel]; exact hq⟩))
        rw [hqn] at ha
        cases ha
    exact this _ fun t ht => ht
  have tidy : (openingOf day payee c (askedPostings [] admits ms)).Tidy := by
    refine ⟨hday.1, hday.2.1, hday.2.2, hpay.1, hpay.2.1, fun _ => hpay.2.2, fun h => absurd rfl h, fun n hn => (by cases hn), ?_, ?_, ?_⟩
    · intro he
      unfold openingOf carried at he
      rw [List.map_eq_nil_iff, List.dedup_eq_nil, List.map_eq_nil_iff] at he
      exact hn he
    · intro p hp
      obtain ⟨a, ha, rfl⟩ := List.mem_map.1 hp
      obtain ⟨q, hq, rfl⟩ := List.mem_map.1 (List.mem_dedup.1 ha)
      obtain ⟨t, ht, hqt, _⟩ := hmem q hq
      obtain ⟨pp, hpp⟩ := hsrc t ht
      exact ⟨rfl, (means_entry hpp).1 q hqt, fun n hn => (by cases hn), _, rfl, hcom, hr _⟩
    · have := carried_value c (askedPostings [] admits ms) []
      rw [below_nil, below_nil, hzero] at this
      exact this
  have refl : ∀ fs : FileSystem, SameLayouts fs fs := fun fs p => by
    cases h : fs p with
    | none => exact .inl ⟨rfl, rfl⟩
    | some a => exact .inr ⟨a, a, rfl, rfl, .refl a⟩
  have f1 := List.rel_append h h'
  have f2 : List.Forall₂ (fun (p : Paragraph × Nat) x => p.1.Means x) ((.entry (openingOf day payee c (askedPostings [] admits ms)).written, 0) :: new)
      (.transaction (openingOf day payee c (askedPostings [] admits ms)) :: ks) := .cons (tidy_means tidy) h'
  obtain ⟨pg, r⟩ := C99_well_formed (⟨g, _, _, _, refl _, g.text, reads_journal _ _ _ _ _ f1 hfit⟩ :
    Given m o args (journalText (old ++ new)) ((ms ++ ks).map fun x => (x, path)) [] admits path)
  obtain ⟨pg', r'⟩ := C99_well_formed (⟨g', _, _, _, refl _, g'.text, reads_journal _ _ _ _ _ f2 hfit'⟩ :
    Given m' o' args' (journalText ((.entry (openingOf day payee c (askedPostings [] admits ms)).written, 0) :: new))
      ((.transaction (openingOf day payee c (askedPostings [] admits ms)) :: ks).map fun x => (x, path')) [] admits path')
  have e : ∀ (l : List Meant) (q : Str), meanings (l.map fun x => (x, q)) = l := fun l q => by
    unfold meanings
    rw [List.map_map]
    exact List.map_id' l
  refine C136_replaced g r g' r' h0 h1 h2 (c := c) hc ?_ ?_
  · rw [e]
    unfold askedPostings asked transactionsOf
    rw [List.filterMap_append, List.filter_append, List.flatMap_append]
  · rw [e]
    have : askedPostings [] admits (.transaction (openingOf day payee c (askedPostings [] admits ms)) :: ks) =
        carried c (askedPostings [] admits ms) ++ askedPostings [] admits ks := by
      generalize ht : openingOf day payee c (askedPostings [] admits ms) = t
      have hd : t.date = day := by rw [← ht]; rfl
      have hp : t.postings = carried c (askedPostings [] admits ms) := by rw [← ht]; rfl
      rw [← hp, ← sel]
      unfold askedPostings asked transactionsOf
      rw [List.filterMap_cons]
      dsimp only
      rw [List.filter_cons, if_pos (by rw [hd]; exact hadm), List.flatMap_cons]
    rw [this]

end

set_option maxRecDepth 100000

/-- What the first transaction of the journal of the examples leaves behind, and how it is written. -/
example :
    letI := asciiUnicode
    let old := askedPostings [] (fun _ => true) (wholeMeaning.take 1)
    let t := openingOf ⟨2020, 2, 1⟩ (str "opening") (str "£") old
    old ≠ [] ∧ (∀ p ∈ askedPostings [] (fun _ => true) (wholeMeaning.take 1) ++ askedPostings [] (fun _ => true) (wholeMeaning.drop 1),
        ∃ a ∈ p.amount, a.commodity = str "£") ∧
      (∀ a ∈ old.map Posting.accountPath, (valueOf (old.filter fun p => p.accountPath = a)).toInt.natAbs < 100 * 2 ^ 46) ∧ CommodityText (str "£") ∧
      Fits (journalLines ((.entry t.written, 0) :: wholeJournal.drop 1)) ∧
      journalText ((.entry t.written, 0) :: wholeJournal.drop 1) = utf8
        "2020-02-01   opening\n    Expenses:Food    £2.50\n    Assets:Bank    £-2.50\n\n2020/02/01 *pay\n  Income:Job  £-50\n  Assets:Bank\n\n~ 2020-01\n  Food  £10\n\n\n" := by
  decide +kernel

/-- A year with several transactions between the same accounts, carried forward. -/
example :
    letI := asciiUnicode
    let a := machineWith (str "f")
      "2019-12-01 pay\n  A:Bank  $50\n  I\n\n2019-12-02 shop\n  E:Food  $2.50\n  A:Bank\n\n2019-12-03 shop\n  E:Food  $1\n  A\n\n2019-12-04 lent\n  A:Bank  $-3\n  L\n\n2019-12-05 back\n  A:Bank  $3\n  L\n\n2020-01-02 shop\n  E:Food  $4\n  A:Bank\n"
    let b := machineWith (str "f")
      "2020-01-01 opening\n  A:Bank  $47.50\n  I  $-50\n  E:Food  $3.50\n  A  $-1\n  L  $0.00\n\n2020-01-02 shop\n  E:Food  $4\n  A:Bank\n"
    ∀ z f c, (a.run { file := str "f", showZero := z, flatten := f, collapse := c } .balance []).ending = .exit 0 ∧
      a.run { file := str "f", showZero := z, flatten := f, collapse := c } .balance [] = b.run { file := str "f", showZero := z, flatten := f, collapse := c } .balance [] := by
  decide +kernel

/-- In two commodities sums cannot be carried forward: there is no saying in which. Here the euros of `A` are shown as dollars, and after them the dollars would be euros. -/
theorem C136_mixed_false :
    letI := asciiUnicode
    let a := machineWith (str "f") "2019-12-01 x\n  A  $1\n  B\n\n2019-12-02 y\n  A  €2\n  C\n\n2020-01-02 z\n  A  €3\n  D\n"
    let b := machineWith (str "f") "2020-01-01 opening\n  A  $3\n  B  $-1\n  C  $-2\n\n2020-01-02 z\n  A  €3\n  D\n"
    (a.run { file := str "f" } .balance []).ending = .exit 0 ∧ a.run { file := str "f" } .balance [] ≠ b.run { file := str "f" } .balance [] := by
  decide +kernel

end Gledger
