/-
C127: arguments that are plain words.
-/
import Verif.Spec.Words

namespace Gledger

theorem argPattern_plain {w : Str} (h : PlainWord w) : PlainWord (argPattern w) := by
  unfold argPattern
  split
  · exact fun c hc => h c (List.mem_of_mem_tail hc)
  · exact h

/-- The pattern of an argument is found where its word is. -/
theorem word_compiles [U : Unicode] {R : RegexEngine} {fold : Char → Char} (hR : SearchesWords R fold) {w : Str} (h : PlainWord w) :
    ∃ r, R.compile (wholePattern w) = some r ∧ ∀ s, r s = true ↔ IsIn fold w s := by
  unfold wholePattern IsIn
  by_cases hu : ∃ c ∈ w, U.isUpper c = true
  · simp only [if_pos hu]
    exact (hR w h).1
  · simp only [if_neg hu]
    exact (hR w h).2

/-- A plain word stands for a filter, which looks for the word. -/
theorem word_filter [U : Unicode] {R : RegexEngine} {fold : Char → Char} (hR : SearchesWords R fold) {w : Str} (h : w ≠ [] ∧ PlainWord w) :
    ∃ f, IsFilterOf R w f ∧ f.ftype = argField w ∧ ∀ s, f.regex s = true ↔ IsIn fold (argPattern w) s := by
  obtain ⟨r, h1, h2⟩ := word_compiles hR (argPattern_plain h.2)
  exact ⟨⟨r, argField w⟩, ⟨h.1, rfl, h1⟩, rfl, h2⟩

theorem word_wide [U : Unicode] {fold : Char → Char} {w : Str} {f : Filter} (hf : f.ftype = argField w)
    (hr : ∀ s, f.regex s = true ↔ IsIn fold (argPattern w) s) (t : Transaction) :
    (∀ p, AsksPosting fold t p w ↔ f.Wide t ∨ f.Takes p) ∧ (AsksTransaction fold t w ↔ f.Wide t ∨ ∃ p ∈ t.postings, f.Takes p) := by
  unfold Filter.Wide Filter.Takes
  rw [hf]
  simp only [hr]
  rcases w with _ | ⟨c, w⟩
  · simp [AsksPosting, AsksTransaction, argField, argPattern]
  · by_cases h1 : c = '@'
    · subst h1
      simp [AsksPosting, AsksTransaction, argField, argPattern]
    · by_cases h2 : c = '='
      · subst h2
        simp only [AsksPosting, AsksTransaction, argField, argPattern]
        simp
        constructor
        · intro p
          grind
        · grind
      · have e1 : ∀ p, AsksPosting fold t p (c :: w) = IsIn fold (c :: w) p.accountPath := by
          intro p
          unfold AsksPosting
          split
          · simp_all
          · simp_all
          · rfl
        have e2 : AsksTransaction fold t (c :: w) = ∃ p ∈ t.postings, IsIn fold (c :: w) p.accountPath := by
          unfold AsksTransaction
          split
          · simp_all
          · simp_all
          · rfl
        simp [e1, e2, argField, argPattern, h1, h2]

open Classical in
/-- Plain words stand for filters that select what the words ask for. -/
theorem words_filters [U : Unicode] {R : RegexEngine} {fold : Char → Char} (hR : SearchesWords R fold) {args : List Str}
    (hw : ∀ w ∈ args, w ≠ [] ∧ PlainWord w) :
    ∃ filters, List.Forall₂ (IsFilterOf R) args filters ∧
      (∀ t, selection filters t = askedFor fold args t) ∧
      (∀ t, WantedBy filters t ↔ args = [] ∨ ∃ w ∈ args, AsksTransaction fold t w) ∧
      ∀ a, (filters = [] ∨ ∃ f ∈ filters, f.regex a = true) ↔ args = [] ∨ ∃ w ∈ args, IsIn fold (argPattern w) a := by
  have key : ∀ args : List Str, (∀ w ∈ args, w ≠ [] ∧ PlainWord w) → ∃ filters, List.Forall₂ (IsFilterOf R) args filters ∧ (filters = [] ↔ args = []) ∧
      (∀ t, ((∃ f ∈ filters, f.Wide t) ∨ ∃ f ∈ filters, ∃ p ∈ t.postings, f.Takes p) ↔ ∃ w ∈ args, AsksTransaction fold t w) ∧
      (∀ t p, ((∃ f ∈ filters, f.Wide t) ∨ ∃ f ∈ filters, f.Takes p) ↔ ∃ w ∈ args, AsksPosting fold t p w) ∧
      ∀ a, (∃ f ∈ filters, f.regex a = true) ↔ ∃ w ∈ args, IsIn fold (argPattern w) a := by
    intro args hw
    induction args with
    | nil => exact ⟨[], .nil, by simp, by simp, by simp, by simp⟩
    | cons w args ih =>
      obtain ⟨fs, i1, i2, i3, i4, i5⟩ := ih fun x hx => hw x (by simp [hx])
      obtain ⟨f, f1, f2, f3⟩ := word_filter hR (hw w (by simp))
      refine ⟨f :: fs, .cons f1 i1, by simp, ?_, ?_, ?_⟩
      · intro t
        have := (word_wide f2 f3 t).2
        simp only [List.mem_cons, exists_eq_or_imp, this, ← i3]
        exact or_or_or_comm
      · intro t p
        have := (word_wide f2 f3 t).1 p
        simp only [List.mem_cons, exists_eq_or_imp, this, ← i4]
        exact or_or_or_comm
      · intro a
        simp only [List.mem_cons, exists_eq_or_imp, f3, ← i5]
  obtain ⟨fs, k1, k2, k3, k4, k5⟩ := key args hw
  refine ⟨fs, k1, ?_, ?_, ?_⟩
  · intro t
    unfold selection askedFor
    simp only [← k2, ← k4]
    by_cases h : WholeSelected fs t
    · rw [if_pos h]
      symm
      apply List.filter_eq_self.2
      intro p _
      simp only [decide_eq_true_eq]
      rcases h with h | h
      · exact Or.inl h
      · exact Or.inr (Or.inl h)
    · rw [if_neg h]
      apply List.filter_congr
      intro p _
      unfold WholeSelected at h
      push Not at h
      simp only [decide_eq_decide]
      constructor
      · exact fun h => Or.inr (Or.inr h)
      · rintro (h' | ⟨f, hf, h'⟩ | h')
        · exact absurd h' h.1
        · exact absurd h' (h.2 f hf)
        · exact h'
  · intro t
    unfold WantedBy WholeSelected
    rw [← k2, ← k3]
    constructor
    · rintro ((h | h) | ⟨p, hp, f, hf, h⟩)
      · exact Or.inl h
      · exact Or.inr (Or.inl h)
      · exact Or.inr (Or.inr ⟨f, hf, p, hp, h⟩)
    · rintro (h | h | ⟨f, hf, p, hp, h⟩)
      · exact Or.inl (Or.inl h)
      · exact Or.inl (Or.inr h)
      · exact Or.inr ⟨p, hp, f, hf, h⟩
  · intro a
    rw [k2, k5]

section
variable [U : Unicode] {m : Machine} {fold : Char → Char} {o : Options} {args : List Str} {js : List (Meant × Str)} {admits : Date → Bool} {path : Str}

theorem WordSetting.setting (g : WordSetting m fold o args js admits path) :
    ∃ bytes filters, Heard m o args bytes js filters admits path ∧ rejection m.fs m.maxOpen bytes path = none ∧
      (∀ t, selection filters t = askedFor fold args t) ∧
      (∀ t, WantedBy filters t ↔ args = [] ∨ ∃ w ∈ args, AsksTransaction fold t w) ∧
      ∀ a, (filters = [] ∨ ∃ f ∈ filters, f.regex a = true) ↔ args = [] ∨ ∃ w ∈ args, IsIn fold (argPattern w) a := by
  obtain ⟨bytes, pg, h1, h2⟩ := g.reading
  obtain ⟨filters, f1, f2, f3, f4⟩ := words_filters g.engine g.words
  obtain ⟨d1, d2, _⟩ := C99_parsed h2
  exact ⟨bytes, filters, ⟨⟨g.fair, g.file, h1, f1, g.days⟩, d1⟩, d2 pg rfl, f2, f3, f4⟩

open Classical in
/-- `print` prints the transactions on the days asked for that some word asks for, by date. -/
theorem C127_print (g : WordSetting m fold o args js admits path) :
    ∃ ts : List Transaction, ts.Perm ((asked admits (meanings js)).filter fun t => args = [] ∨ ∃ w ∈ args, AsksTransaction fold t w) ∧
      ts.Pairwise (fun a b => a.date.dayNumber ≤ b.date.dayNumber) ∧
      m.run o .print args = ⟨(ts.map fun t => t.format ++ str "\n").flatten, .exit 0⟩ := by
  obtain ⟨bytes, filters, h, ha, _, h2, _⟩ := g.setting
  obtain ⟨ts, t1, t2, t3⟩ := h.print ha
  refine ⟨ts, ?_, t2, t3⟩
  rwa [List.filter_congr fun t _ => decide_eq_decide.2 (h2 t)] at t1

/-- `balance` reports on the postings that some word asks for, of the transactions on the days asked for; unless one of them has no amount, when it crashes. -/
theorem C127_balance (g : WordSetting m fold o args js admits path) :
    if ∃ t ∈ asked admits (meanings js), ∃ p ∈ askedFor fold args t, p.amount = none then (m.run o .balance args).ending = .panic .unusablePosting
    else ∃ (qss : List (List Posting)) (text : Str), List.Forall₂ (fun qs t => qs.Perm (askedFor fold args t)) qss (asked admits (meanings js)) ∧
      BalanceReport o.showZero o.flatten o.collapse qss.flatten text ∧
      m.run o .balance args = ⟨balanceMixes [] qss.flatten ++ text, .exit 0⟩ := by
  obtain ⟨bytes, filters, h, ha, h1, _⟩ := g.setting
  have e : Command.balance.Short filters admits (meanings js) ↔ ∃ t ∈ asked admits (meanings js), ∃ p ∈ askedFor fold args t, p.amount = none := by
    simp only [Command.Short, askedPostings, List.mem_flatMap, h1]
    constructor
    · rintro ⟨p, ⟨t, ht, hp⟩, hn⟩
      exact ⟨t, ht, p, hp, hn⟩
    · rintro ⟨t, ht, p, hp, hn⟩
      exact ⟨p, ⟨t, ht, hp⟩, hn⟩
  split
  · next hs => exact h.crash ha (e.2 hs)
  · next hs =>
    obtain ⟨qss, text, q1, q2, q3⟩ := h.balance ha (mt e.1 hs)
    refine ⟨qss, text, q1.imp fun qs t hq => ?_, q2, q3⟩
    rw [← h1]
    exact hq.1

/-- `accounts` lists the accounts whose names contain some word. What stands before a word (`@` or `=`) is dropped, and does not matter. -/
theorem C127_accounts_partial (g : WordSetting m fold o args js admits path) :
    ∃ text, m.run o .accounts args = ⟨text, .exit 0⟩ ∧
      Lists (fun a => (∃ t ∈ asked admits (meanings js), ∃ p ∈ t.postings, p.accountPath = a) ∧ (args = [] ∨ ∃ w ∈ args, IsIn fold (argPattern w) a)) text := by
  obtain ⟨bytes, filters, h, ha, _, _, h3⟩ := g.setting
  obtain ⟨text, t1, t2⟩ := h.accounts ha
  refine ⟨text, t1, ?_⟩
  simpa only [h3] using t2

/-- `payees` lists the payees that contain some word; a `@` or `=` before it is taken for a part of it. -/
theorem C127_payees_partial (g : WordSetting m fold o args js admits path) :
    ∃ text, m.run o .payees args = ⟨text, .exit 0⟩ ∧
      Lists (fun a => (∃ t ∈ asked admits (meanings js), t.payee = a) ∧ (args = [] ∨ ∃ w ∈ args, IsIn fold w a)) text := by
  obtain ⟨bytes, filters, h, ha, _, _, _⟩ := g.setting
  obtain ⟨text, t1, t2⟩ := h.payees ha fun a hm => by
    obtain ⟨r, h1, _⟩ := word_compiles g.engine (g.words a hm).2
    exact ⟨r, h1⟩
  refine ⟨text, t1, ?_⟩
  have e : ∀ a, PayeeMatch m.engine args a ↔ ∃ w ∈ args, IsIn fold w a := by
    intro a
    constructor
    · rintro ⟨w, hw, r, hr, h⟩
      obtain ⟨r', h1, h2⟩ := word_compiles g.engine (g.words w hw).2
      obtain rfl : r' = r := Option.some.inj (h1.symm.trans hr)
      exact ⟨w, hw, (h2 a).1 h⟩
    · rintro ⟨w, hw, h⟩
      obtain ⟨r', h1, h2⟩ := word_compiles g.engine (g.words w hw).2
      exact ⟨w, hw, r', h1, (h2 a).2 h⟩
  simpa only [e] using t2

end

/-! An engine that finds plain words, and nothing else. -/

def asciiLower (c : Char) : Char := if 'A' ≤ c ∧ c ≤ 'Z' then Char.ofNat (c.toNat + 32) else c

def wordEngine : RegexEngine where
  compile p :=
    if p.take 4 = str "(?i)" then
      if PlainWord (p.drop 4) then some fun s => decide ((p.drop 4).map asciiLower <:+: s.map asciiLower) else none
    else if PlainWord p then some fun s => decide (p <:+: s) else none

theorem wordEngine_searches : SearchesWords wordEngine asciiLower := by
  intro w hw
  constructor
  · have h : w.take 4 ≠ str "(?i)" := by
      intro h
      have : '(' ∈ w := List.mem_of_mem_take (h ▸ (by decide : '(' ∈ str "(?i)"))
      exact hw _ this (by decide)
    exact ⟨fun s => decide (w <:+: s), by simp [wordEngine, h, hw], by simp⟩
  · have h1 : (str "(?i)" ++ w).take 4 = str "(?i)" := by
      rw [List.take_append_of_le_length (by decide)]
      decide
    have h2 : (str "(?i)" ++ w).drop 4 = w := by
      rw [List.drop_append_of_le_length (by decide)]
      exact (by decide : (str "(?i)").drop 4 = []) ▸ rfl
    exact ⟨fun s => decide (w.map asciiLower <:+: s.map asciiLower), by simp only [wordEngine, h1, h2, if_true, hw], by simp⟩

/-! The machine of the examples with this engine: `food` finds Expenses:Food. -/

def wordMachine : Machine := { wholeMachine with engine := wordEngine }

set_option maxRecDepth 100000 in
theorem wordSetting :
    letI := asciiUnicode
    WordSetting wordMachine asciiLower wholeOptions [str "food"] (wholeMeaning.map fun x => (x, str "f")) wholeDays (str "f") := by
  let := asciiUnicode
  obtain ⟨pg, h⟩ := C99_well_formed wholeGiven
  exact ⟨⟨wholeFair.1, wholeFair.2, wholeFair.3, wholeFair.4⟩, wholeGiven.file, ⟨_, pg, wholeGiven.text, h⟩, wordEngine_searches, by decide, wholeGiven.days⟩

set_option maxRecDepth 100000 in
example :
    letI := asciiUnicode
    wordMachine.run wholeOptions .accounts [str "food"] = ⟨str "Expenses:Food\n", .exit 0⟩ ∧
    wordMachine.run wholeOptions .accounts [str "Foo"] = ⟨str "Expenses:Food\n", .exit 0⟩ ∧
    wordMachine.run wholeOptions .accounts [str "FOOD"] = ⟨[], .exit 0⟩ ∧
    wordMachine.run wholeOptions .payees [str "HO"] = ⟨[], .exit 0⟩ ∧
    wordMachine.run wholeOptions .payees [str "ho"] = ⟨str "shop\n", .exit 0⟩ := by
  decide +kernel

set_option maxRecDepth 100000 in
/-- The commands do not agree on what `@` means: for `print` the word behind it is looked for in payees, but `accounts` looks for it in the names of
accounts, and `payees` looks for payees with an `@`. -/
theorem C127_fields_false :
    ¬ ∀ (m : Machine) (U : Unicode) (o : Options) (w : Str), SearchesWords m.engine asciiLower → PlainWord w →
      (@Machine.run U m o .print ['@' :: w]).stdout ≠ [] →
      (@Machine.run U m o .accounts ['@' :: w]).stdout ≠ [] ∨ (@Machine.run U m o .payees ['@' :: w]).stdout ≠ [] := by
  intro h
  have := h { machineWith (str "f") "2020-01-02 shop\n  A  1\n  B\n" with engine := wordEngine, sortTransactions := id } asciiUnicode { file := str "f" } (str "shop")
    wordEngine_searches (by decide)
  revert this
  decide +kernel

end Gledger
