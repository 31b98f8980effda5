/-
C131 for texts: a well-formed journal in which the names of accounts are replaced.
-/
import Verif.Props.Mirror

namespace Gledger

/-- A posting line with other names. -/
def WrittenPosting.rename (f : Str → Str) (p : WrittenPosting) : WrittenPosting := { p with account := renamedPath f p.account }

/-- A paragraph with other names of accounts. (The categories in budget entries stay.) -/
def Paragraph.rename (f : Str → Str) : Paragraph → Paragraph
  | .entry e => .entry { e with postings := e.postings.map (WrittenPosting.rename f) }
  | .budget b => .budget b

def Posting.rename (f : Str → Str) (p : Posting) : Posting := { p with accountPath := renamedPath f p.accountPath }

def Meant.rename (f : Str → Str) : Meant → Meant
  | .transaction t => .transaction { t with postings := t.postings.map (Posting.rename f) }
  | .budget m ps => .budget m ps

section
variable {f : Str → Str}

theorem inferred_rename (ps : List Posting) : inferred (ps.map (Posting.rename f)) = (inferred ps).map (Posting.rename f) := by
  have hv : (ps.map (Posting.rename f)).map Posting.value = ps.map Posting.value := by
    rw [List.map_map]
    rfl
  have hl : lastCommodity (ps.map (Posting.rename f)) = lastCommodity ps := by
    unfold lastCommodity writtenCommodities
    rw [List.filterMap_map]
    rfl
  unfold inferred
  rw [hv, hl]
  split
  · rfl
  · rw [List.map_map, List.map_map]
    refine List.map_congr_left fun p _ => ?_
    simp only [Function.comp]
    by_cases h : p.amount = none
    · rw [if_pos (show (Posting.rename f p).amount = none from h), if_pos h]
      rfl
    · rw [if_neg (show ¬ (Posting.rename f p).amount = none from h), if_neg h]

theorem complete_rename (t : Transaction) (ps : List Posting) : t.complete (ps.map (Posting.rename f)) =
    { t.complete ps with postings := (t.complete ps).postings.map (Posting.rename f) } := by
  unfold Transaction.complete
  rw [inferred_rename, List.findIdx?_map]
  rfl

theorem closes_rename {ps : List Posting} (h : Closes ps) : Closes (ps.map (Posting.rename f)) := by
  obtain ⟨a, b, c⟩ := h
  refine ⟨by simpa using a, ?_, fun k => ?_⟩
  · rw [List.filter_map, List.length_map]
    exact b
  · rw [List.map_map]
    exact c fun p hp => k (Posting.rename f p) (List.mem_map_of_mem hp)

theorem means_rename [Unicode] {p : Paragraph} {x : Meant} (h : p.Means x)
    (ha : ∀ e, p = .entry e → ∀ q ∈ e.postings, AccountText (renamedPath f q.account)) : (p.rename f).Means (x.rename f) := by
  cases p with
  | budget b =>
    cases x with
    | transaction t => exact h.elim
    | budget m ps => exact h
  | entry e =>
    cases x with
    | budget m ps => exact h.elim
    | transaction t =>
      obtain ⟨h1, h2, h3, h4, h5⟩ := h
      have hb : Entry.body { e with postings := e.postings.map (WrittenPosting.rename f) } = e.body.map (Posting.rename f) := by
        unfold Entry.body
        rw [List.map_map, List.map_map]
        rfl
      refine ⟨h1, h2, ?_, ?_, ?_⟩
      · intro q hq
        obtain ⟨r, hr, rfl⟩ := List.mem_map.1 hq
        exact ⟨(h3 r hr).1, ha e rfl r hr, (h3 r hr).2.2.1, (h3 r hr).2.2.2⟩
      · rw [hb]
        exact closes_rename h4
      · rw [hb, h5]
        exact (complete_rename _ _).symm

theorem rename_renamed (hc : ∀ c, ':' ∉ c → ':' ∉ f c) (p : Posting) : (p.rename f).Renamed f p := by
  refine ⟨?_, rfl⟩
  unfold Posting.components Posting.rename renamedPath
  refine split_joinPath _ (by simpa using split_nonempty ':' p.accountPath) fun c h => ?_
  obtain ⟨d, hd, rfl⟩ := List.mem_map.1 h
  exact hc d (split_clean _ d hd)

theorem asked_rename (admits : Date → Bool) (ms : List Meant) :
    askedPostings [] admits (ms.map (Meant.rename f)) = (askedPostings [] admits ms).map (Posting.rename f) := by
  have sel : ∀ t, selection [] t = t.postings := fun t => by
    unfold selection
    exact if_pos (Or.inl rfl)
  induction ms with
  | nil => rfl
  | cons x ms ih =>
    unfold askedPostings asked transactionsOf at ih ⊢
    cases x with
    | budget m ps => exact ih
    | transaction t =>
      rw [List.map_cons, Meant.rename, List.filterMap_cons, List.filterMap_cons]
      dsimp only
      rw [List.filter_cons, List.filter_cons]
      dsimp only
      split
      · rw [List.flatMap_cons, List.flatMap_cons, ih, sel, sel, List.map_append]
      · exact ih

variable [Unicode] {m m' : Machine} {o o' : Options} {args args' : List Str} {admits : Date → Bool} {path path' : Str}

/-- A well-formed journal file, and the same file with other names of accounts, one to one: `balance` without arguments, about the same days, in the same
form, prints the same lines under the other names. (In one commodity; no amount may be missing.) -/
theorem C131_texts (hf : Function.Injective f) (hR : ∀ c, Reserved c → f c = c) (hcol : ∀ c, ':' ∉ c → ':' ∉ f c)
    {ps : List (Paragraph × Nat)} {ms : List Meant} (h : List.Forall₂ (fun p x => p.1.Means x) ps ms)
    (hacc : ∀ p ∈ ps, ∀ e, p.1 = .entry e → ∀ q ∈ e.postings, AccountText (renamedPath f q.account))
    (hfit : Fits (journalLines ps)) (hfit' : Fits (journalLines (ps.map fun p => (p.1.rename f, p.2))))
    (g : Setting m o args (journalText ps) [] admits path)
    (g' : Setting m' o' args' (journalText (ps.map fun p => (p.1.rename f, p.2))) [] admits path')
    (h0 : o.showZero = o'.showZero) (h1 : o.flatten = o'.flatten) (h2 : o.collapse = o'.collapse)
    {c : Str} (hc : ∀ p ∈ askedPostings [] admits ms, ∃ a, p.amount = some a ∧ a.commodity = c) :
    ∃ (ls ls' : List BalanceLine) (total : Amount),
      m.run o .balance args = ⟨joinLines (ls.map BalanceLine.text) ++ footer total, .exit 0⟩ ∧
      m'.run o' .balance args' = ⟨joinLines (ls'.map BalanceLine.text) ++ footer total, .exit 0⟩ ∧ ls'.Perm (ls.map (BalanceLine.rename f)) ∧
      ((∀ c d, (∃ p ∈ askedPostings [] admits ms, c ∈ p.components) → (∃ p ∈ askedPostings [] admits ms, d ∈ p.components) →
        StrLt c d → StrLt (f c) (f d)) → ls' = ls.map (BalanceLine.rename f)) := by
  have hr : List.Forall₂ (fun p x => p.1.Means x) (ps.map fun p => (p.1.rename f, p.2)) (ms.map (Meant.rename f)) := by
    rw [List.forall₂_map_left_iff, List.forall₂_map_right_iff]
    clear hc hfit hfit' g g'
    induction h with
    | nil => exact .nil
    | @cons p x ps ms k1 _ ih =>
      exact .cons (means_rename k1 (hacc p (by simp))) (ih fun p hp => hacc p (List.mem_cons_of_mem _ hp))
  have refl : ∀ fs : FileSystem, SameLayouts fs fs := fun fs p => by
    cases h : fs p with
    | none => exact .inl ⟨rfl, rfl⟩
    | some a => exact .inr ⟨a, a, rfl, rfl, .refl a⟩
  obtain ⟨pg, r⟩ := C99_well_formed (⟨g, _, _, _, refl _, g.text, reads_journal _ _ _ _ _ h hfit⟩ : Given m o args (journalText ps) (ms.map fun x => (x, path)) [] admits path)
  obtain ⟨pg', r'⟩ := C99_well_formed (⟨g', _, _, _, refl _, g'.text, reads_journal _ _ _ _ _ hr hfit'⟩ :
    Given m' o' args' (journalText (ps.map fun p => (p.1.rename f, p.2))) ((ms.map (Meant.rename f)).map fun x => (x, path')) [] admits path')
  have e : ∀ (l : List Meant) (q : Str), meanings (l.map fun x => (x, q)) = l := fun l q => by
    unfold meanings
    rw [List.map_map]
    exact List.map_id' l
  have key := C131_runs hf hR g r (qs := (askedPostings [] admits ms).map (Posting.rename f)) (c := c) (by
      rw [e]
      rintro ⟨p, hp, hn⟩
      obtain ⟨a, ha, _⟩ := hc p hp
      rw [hn] at ha
      cases ha) g' r' (by
      rw [e]
      rintro ⟨p, hp, hn⟩
      rw [asked_rename] at hp
      obtain ⟨q, hq, rfl⟩ := List.mem_map.1 hp
      obtain ⟨a, ha, _⟩ := hc q hq
      rw [show q.amount = none from hn] at ha
      cases ha) h0 h1 h2 (by
      rw [e]
      intro p hp a ha
      obtain ⟨b, hb, hcb⟩ := hc p hp
      rw [hb] at ha
      cases ha
      exact hcb) (by rw [e, asked_rename]) (by
      rw [e, List.forall₂_map_left_iff]
      exact List.forall₂_same.2 fun p _ => rename_renamed hcol p)
  rw [e] at key
  exact key

end

theorem wholeDrink :
    letI := asciiUnicode
    ∀ p ∈ wholeJournal, ∀ q ∈ (match p.1 with
      | .entry e => e.postings
      | .budget _ => []), AccountText (renamedPath (Equiv.swap (str "Food") (str "Drink")) q.account) := by
  decide +kernel

set_option maxRecDepth 100000 in
/-- The journal of the examples with `Drink` for `Food`. -/
example :
    letI := asciiUnicode
    let f : Str → Str := Equiv.swap (str "Food") (str "Drink")
    Function.Injective f ∧ (∀ c, Reserved c → f c = c) ∧ (∀ c, ':' ∉ c → ':' ∉ f c) ∧
      (∀ p ∈ wholeJournal, ∀ e, p.1 = .entry e → ∀ q ∈ e.postings, AccountText (renamedPath f q.account)) ∧
      Fits (journalLines wholeJournal) ∧ Fits (journalLines (wholeJournal.map fun p => (p.1.rename f, p.2))) ∧
      journalText (wholeJournal.map fun p => (p.1.rename f, p.2)) =
        utf8 "2020-01-02 shop\n  Expenses:Drink  £2.50\n  Assets:Bank\n\n2020/02/01 *pay\n  Income:Job  £-50\n  Assets:Bank\n\n~ 2020-01\n  Food  £10\n\n\n" := by
  let := asciiUnicode
  refine ⟨Equiv.injective _, ?_, ?_, ?_, by decide +kernel, by decide +kernel, by decide +kernel⟩
  · rintro c (rfl | rfl) <;> decide +kernel
  · intro c hc
    show ':' ∉ Equiv.swap (str "Food") (str "Drink") c
    rw [Equiv.swap_apply_def]
    split
    · decide
    · split
      · decide
      · exact hc
  · intro p hp e he
    have := wholeDrink p hp
    rw [he] at this
    exact this

end Gledger
